/-
C74: specification of how trace events are written in JSON, and proof that the program reads exactly that.
-/
import Verif.Trace.Json

set_option autoImplicit false
set_option linter.unusedSectionVars false
set_option linter.unusedSimpArgs false
set_option linter.unusedVariables false

namespace Verif.Trace.Ctf

open Verif.Trace

variable {F : Type}

/-! ## Specification -/

/-- All values given for a key, in order. -/
def occ (o : Entries F) (k : String) : List (Json F) := (o.filter fun e => e.1 == k).map (·.2)

/-- The key occurs exactly once, with a value that means `x`. -/
def Has {α : Type} (o : Entries F) (k : String) (P : Json F → α → Prop) (x : α) : Prop := ∃ j, occ o k = [j] ∧ P j x

/-- The key is absent or null (`x = none`), or occurs exactly once with a value that means `x`. -/
def May {α : Type} (o : Entries F) (k : String) (P : Json F → α → Prop) (x : Option α) : Prop :=
  (x = none ∧ (occ o k = [] ∨ occ o k = [.null])) ∨ ∃ y j, x = some y ∧ occ o k = [j] ∧ P j y

/-- An integer literal. -/
def IsInt (j : Json F) (i : Int) : Prop :=
  (∃ n : Nat, j = .num (.nat n) ∧ i = n) ∨ ∃ n : Nat, j = .num (.neg n) ∧ i = -((n : Int) + 1)

def IsI32 (j : Json F) (i : Int) : Prop := IsInt j i ∧ -2147483648 ≤ i ∧ i ≤ 2147483647

def IsI64 (j : Json F) (i : Int) : Prop := IsInt j i ∧ -9223372036854775808 ≤ i ∧ i ≤ 9223372036854775807

/-- Any number. -/
def IsNum (cast : Int → F) (j : Json F) (x : F) : Prop := j = .num (.float x) ∨ ∃ i, IsInt j i ∧ x = cast i

def IsStr (j : Json F) (s : String) : Prop := j = .str s

/-- Comma-separated categories; empty ones do not count. -/
def IsCat (j : Json F) (l : List String) : Prop :=
  ∃ (s : String) (parts : List (List Char)), j = .str s ∧ parts ≠ [] ∧ [','].intercalate parts = s.toList ∧
    (∀ p ∈ parts, ',' ∉ p) ∧ l = (parts.filter (· ≠ [])).map String.ofList

/-- An object; see `c74_map` for what `toMap` keeps. -/
def IsMap (cast : Int → F) (j : Json F) (m : Args F) : Prop := ∃ l, j = .obj l ∧ m = toMap cast l

/-- Frame ids are integers or strings. -/
def IsFrameId (j : Json F) (s : String) : Prop := (∃ i, IsI64 j i ∧ s = toString i) ∨ j = .str s

/-- An array of strings; `s` is the last one. -/
def IsInline (j : Json F) (s : String) : Prop := ∃ l : List String, j = .arr (l.map .str) ∧ s = l.getLastD ""

/-- Stack trace given by the first of the keys `sf` and `stack`; one that makes no sense is as good as none. -/
def IsStack (o : Entries F) (sf stack : String) (x : Option String) : Prop :=
  ∀ s, x = some s ↔ ∃ k j, (o.filter fun e => e.1 == sf || e.1 == stack).head? = some (k, j) ∧
    ((k = sf ∧ IsFrameId j s) ∨ (k = stack ∧ IsInline j s))

/-- Common part of duration and complete events. -/
structure ReadsDuration (cast : Int → F) (o : Entries F) (d : DurEvent F) : Prop where
  pid : Has o "pid" IsI32 d.pid
  tid : Has o "tid" IsI32 d.tid
  ts : Has o "ts" (IsNum cast) d.ts
  name : May o "name" IsStr d.name
  cat : May o "cat" IsCat d.cat
  tts : May o "tts" (IsNum cast) d.tts
  args : May o "args" (IsMap cast) d.args
  stack : IsStack o "sf" "stack" d.stackTrace

/-- Optional fields of metadata events. -/
structure ReadsOptions (cast : Int → F) (o : Entries F) (m : MetaOpts F) : Prop where
  cat : May o "cat" IsCat m.cat
  ts : May o "ts" (IsNum cast) m.ts
  tts : May o "tts" (IsNum cast) m.tts

/-- Argument object with one mandatory field. -/
def IsArgs {α : Type} (cast : Int → F) (field : String) (P : Json F → α → Prop) (j : Json F) (x : α × Args F) : Prop :=
  ∃ l, j = .obj l ∧ Has l field P x.1 ∧ x.2 = toMap cast (l.filter fun e => e.1 != field)

/-- Name of a kind of metadata, or its number. -/
def IsKind (kind : String) (index : Nat) (j : Json F) (_ : Unit) : Prop := j = .str kind ∨ j = .num (.nat index)

/-- How metadata events are written in JSON. -/
def ReadsMeta (cast : Int → F) (o : Entries F) : MetaEvent F → Prop
  | .processName pid name extra tid opts => Has o "name" (IsKind "process_name" 0) () ∧
        Has o "pid" IsI32 pid ∧ Has o "args" (IsArgs cast "name" IsStr) (name, extra) ∧ May o "tid" IsI32 tid ∧
        ReadsOptions cast o opts
  | .threadName tid name extra pid opts => Has o "name" (IsKind "thread_name" 3) () ∧
        Has o "tid" IsI32 tid ∧ Has o "args" (IsArgs cast "name" IsStr) (name, extra) ∧ May o "pid" IsI32 pid ∧
        ReadsOptions cast o opts
  | .other kind => (∃ opts, ReadsOptions cast o opts) ∧
        ((kind = "process_labels" ∧ Has o "name" (IsKind "process_labels" 1) () ∧ (∃ p, Has o "pid" IsI32 p) ∧
            (∃ x, Has o "args" (IsArgs cast "labels" IsStr) x) ∧ ∃ t, May o "tid" IsI32 t) ∨
         (kind = "process_sort_index" ∧ Has o "name" (IsKind "process_sort_index" 2) () ∧ (∃ p, Has o "pid" IsI32 p) ∧
            (∃ x, Has o "args" (IsArgs cast "sort_order" IsI64) x) ∧ ∃ t, May o "tid" IsI32 t) ∨
         (kind = "thread_sort_index" ∧ Has o "name" (IsKind "thread_sort_index" 4) () ∧ (∃ t, Has o "tid" IsI32 t) ∧
            (∃ x, Has o "args" (IsArgs cast "sort_order" IsI64) x) ∧ ∃ p, May o "pid" IsI32 p))

/-- How events are written in JSON. -/
def Reads (cast : Int → F) (j : Json F) (ev : Event F) : Prop :=
  ∃ o, j = .obj o ∧
    match ev with
    | .b d => Has o "ph" IsStr "B" ∧ ReadsDuration cast o d
    | .e d => Has o "ph" IsStr "E" ∧ ReadsDuration cast o d
    | .x d dur tdur est => Has o "ph" IsStr "X" ∧ ReadsDuration cast o d ∧ Has o "dur" (IsNum cast) dur ∧
        May o "tdur" (IsNum cast) tdur ∧ IsStack o "esf" "estack" est
    | .m m => Has o "ph" IsStr "M" ∧ ReadsMeta cast o m

/-! ## Occurrences -/

theorem occ_nil (k : String) : occ ([] : Entries F) k = [] := rfl

theorem occ_append (a b : Entries F) (k : String) : occ (a ++ b) k = occ a k ++ occ b k := by
  simp [occ]

theorem occ_cons (k' : String) (v : Json F) (l : Entries F) (k : String) :
    occ ((k', v) :: l) k = (if k' = k then [v] else []) ++ occ l k := by
  by_cases h : k' = k <;> simp [occ, List.filter_cons, h]

theorem lookup_occ (o : Entries F) (k : String) : o.lookup k = (occ o k).head? := by
  induction o with
  | nil => rfl
  | cons e o ih =>
    obtain ⟨k', v⟩ := e
    rw [occ_cons, List.lookup_cons]
    by_cases h : k' = k
    · simp [h]
    · have : (k == k') = false := by simpa using fun e => h e.symm
      simp [h, this, ih]

theorem occ_filter (o : Entries F) (p : String → Bool) (k : String) :
    occ (o.filter fun e => p e.1) k = if p k = true then occ o k else [] := by
  induction o with
  | nil => simp [occ]
  | cons e o ih =>
    obtain ⟨k', v⟩ := e
    rw [List.filter_cons]
    by_cases hp : p k' = true
    · rw [if_pos hp, occ_cons, occ_cons, ih]
      by_cases h : k' = k
      · subst h; simp [hp]
      · simp [h]
    · rw [if_neg hp, occ_cons, ih]
      by_cases h : k' = k
      · subst h; simp [hp]
      · simp [h]

theorem visit_gen (known : List String) (l : Entries F) : ∀ slots rest : Entries F,
    (∀ k ∈ known, (occ slots k).length ≤ 1) →
    visit known slots rest l =
      if ∀ k ∈ known, (occ (slots ++ l) k).length ≤ 1 then
        some (slots ++ l.filter fun e => decide (e.1 ∈ known), rest ++ l.filter fun e => !decide (e.1 ∈ known))
      else none := by
  induction l with
  | nil =>
    intro slots rest hs
    simp only [visit, List.append_nil, List.filter_nil]
    rw [if_pos hs]
  | cons e l ih =>
    obtain ⟨k, v⟩ := e
    intro slots rest hs
    simp only [visit]
    by_cases hk : k ∈ known
    · rw [if_pos hk, lookup_occ]
      cases ho : occ slots k with
      | cons a t =>
        simp only [List.head?_cons]
        rw [if_neg]
        intro h
        have := h k hk
        rw [occ_append, occ_cons, ho, if_pos rfl] at this
        simp at this
      | nil =>
        simp only [List.head?_nil]
        have hs' : ∀ k' ∈ known, (occ (slots ++ [(k, v)]) k').length ≤ 1 := by
          intro k' hk'
          rw [occ_append, occ_cons]
          by_cases h : k = k'
          · subst h; rw [ho, occ_nil]; simp
          · simp [h, occ_nil]; exact hs k' hk'
        rw [ih _ _ hs']
        simp [List.filter_cons, hk, List.append_assoc]
    · rw [if_neg hk, ih _ _ hs]
      have : (∀ k' ∈ known, (occ (slots ++ l) k').length ≤ 1) ↔
          ∀ k' ∈ known, (occ (slots ++ (k, v) :: l) k').length ≤ 1 := by
        refine forall₂_congr fun k' hk' => ?_
        rw [occ_append, occ_append, occ_cons, if_neg (fun e : k = k' => hk (by rw [e]; exact hk')), List.nil_append]
      simp only [this]
      simp [List.filter_cons, hk, List.append_assoc]

/-- A struct is read iff no known key occurs twice. -/
theorem visit_eq (known : List String) (l : Entries F) :
    visit known [] [] l =
      if ∀ k ∈ known, (occ l k).length ≤ 1 then
        some (l.filter fun e => decide (e.1 ∈ known), l.filter fun e => !decide (e.1 ∈ known))
      else none := by
  rw [visit_gen known l [] [] (fun k _ => by simp [occ_nil])]
  simp

/-- What is left for flattened fields. -/
def others (known : List String) (l : Entries F) : Entries F := l.filter fun e => !decide (e.1 ∈ known)

theorem occ_others (known : List String) (l : Entries F) (k : String) (h : k ∉ known) : occ (others known l) k = occ l k := by
  unfold others
  rw [occ_filter l (fun k => !decide (k ∈ known))]
  simp [h]

theorem occ_known (known : List String) (l : Entries F) (k : String) (h : k ∈ known) :
    occ (l.filter fun e => decide (e.1 ∈ known)) k = occ l k := by
  rw [occ_filter l (fun k => decide (k ∈ known))]
  simp [h]

theorem required_iff {α : Type} (r : Json F → Option α) (P : Json F → α → Prop) (hr : ∀ j x, r j = some x ↔ P j x)
    (known : List String) (l : Entries F) (k : String) (hk : k ∈ known) (h1 : (occ l k).length ≤ 1) (x : α) :
    required r (l.filter fun e => decide (e.1 ∈ known)) k = some x ↔ Has l k P x := by
  unfold required Has
  rw [lookup_occ, occ_known known l k hk]
  match ho : occ l k with
  | [] => simp
  | [j] => simp [hr]
  | a :: b :: t => rw [ho] at h1; simp at h1

theorem optional_iff {α : Type} (r : Json F → Option α) (P : Json F → α → Prop) (hr : ∀ j x, r j = some x ↔ P j x)
    (known : List String) (l : Entries F) (k : String) (hk : k ∈ known) (h1 : (occ l k).length ≤ 1)
    (hn : r .null = none) (x : Option α) :
    optional r (l.filter fun e => decide (e.1 ∈ known)) k = some x ↔ May l k P x := by
  unfold optional May
  rw [lookup_occ, occ_known known l k hk]
  match ho : occ l k with
  | [] => simp [eq_comm]
  | [j] =>
    simp only [List.head?_cons]
    by_cases hj : j = .null
    · subst hj
      have : ∀ y, ¬ P .null y := fun y hy => by rw [← hr, hn] at hy; cases hy
      simp [readOpt, this, eq_comm]
    · have : readOpt r j = (r j).map some := by cases j <;> first | rfl | exact absurd rfl hj
      rw [this]
      simp [hj, ← hr, Option.map_eq_some_iff, eq_comm, and_comm]
  | a :: b :: t => rw [ho] at h1; simp at h1

theorem has_le {α : Type} {o : Entries F} {k : String} {P : Json F → α → Prop} {x : α} (h : Has o k P x) :
    (occ o k).length ≤ 1 := by
  obtain ⟨j, hj, -⟩ := h; simp [hj]

theorem may_le {α : Type} {o : Entries F} {k : String} {P : Json F → α → Prop} {x : Option α} (h : May o k P x) :
    (occ o k).length ≤ 1 := by
  rcases h with ⟨-, h | h⟩ | ⟨y, j, -, hj, -⟩ <;> simp [*]

theorem has_congr {α : Type} {o o' : Entries F} {k : String} (h : occ o k = occ o' k) (P : Json F → α → Prop) (x : α) :
    Has o k P x ↔ Has o' k P x := by unfold Has; rw [h]

theorem may_congr {α : Type} {o o' : Entries F} {k : String} (h : occ o k = occ o' k) (P : Json F → α → Prop) (x : Option α) :
    May o k P x ↔ May o' k P x := by unfold May; rw [h]

/-! ## Scalars -/

theorem readInt_iff (lo hi : Int) (j : Json F) (i : Int) : readInt lo hi j = some i ↔ IsInt j i ∧ lo ≤ i ∧ i ≤ hi := by
  unfold IsInt
  cases j with
  | num n =>
    cases n with
    | nat n =>
      simp only [readInt, Json.num.injEq, Num.nat.injEq, reduceCtorEq, false_and, exists_false, or_false]
      constructor
      · intro h
        split at h
        · cases h; exact ⟨⟨n, rfl, rfl⟩, by assumption⟩
        · cases h
      · rintro ⟨⟨m, rfl, rfl⟩, h⟩; rw [if_pos h]
    | neg n =>
      simp only [readInt, Json.num.injEq, Num.neg.injEq, reduceCtorEq, false_and, exists_false, false_or]
      constructor
      · intro h
        split at h
        · cases h; exact ⟨⟨n, rfl, rfl⟩, by assumption⟩
        · cases h
      · rintro ⟨⟨m, rfl, rfl⟩, h⟩; rw [if_pos h]
    | float f => simp [readInt]
  | _ => simp [readInt]

theorem readI32_iff (j : Json F) (i : Int) : readI32 j = some i ↔ IsI32 j i := readInt_iff _ _ _ _
theorem readI64_iff (j : Json F) (i : Int) : readI64 j = some i ↔ IsI64 j i := readInt_iff _ _ _ _

theorem readF64_iff (cast : Int → F) (j : Json F) (x : F) : readF64 cast j = some x ↔ IsNum cast j x := by
  unfold IsNum IsInt
  cases j with
  | num n =>
    cases n with
    | nat n => simp [readF64, eq_comm]
    | neg n => simp [readF64, eq_comm]
    | float f => simp [readF64, eq_comm]
  | _ => simp [readF64]

theorem readStr_iff (j : Json F) (s : String) : readStr j = some s ↔ IsStr j s := by
  unfold IsStr; cases j <;> simp [readStr]

theorem splitComma_ne (s : List Char) : splitComma s ≠ [] := by
  cases s with
  | nil => simp [splitComma]
  | cons c s => simp only [splitComma]; split <;> [simp; (split <;> simp)]

theorem splitComma_spec (s : List Char) : [','].intercalate (splitComma s) = s ∧ ∀ p ∈ splitComma s, ',' ∉ p := by
  induction s with
  | nil => simp [splitComma, List.intercalate]
  | cons c s ih =>
    obtain ⟨h1, h2⟩ := ih
    simp only [splitComma]
    split
    · rename_i hc
      subst hc
      refine ⟨?_, by simpa using h2⟩
      match hs : splitComma s with
      | [] => exact absurd hs (splitComma_ne s)
      | p :: ps => rw [hs] at h1; rw [← h1]; simp [List.intercalate]
    · rename_i hc
      match hs : splitComma s with
      | [] => exact absurd hs (splitComma_ne s)
      | p :: ps =>
        rw [hs] at h1 h2
        constructor
        · rw [← h1]; cases ps <;> simp [List.intercalate]
        · intro q hq
          rcases List.mem_cons.1 hq with rfl | hq
          · simp only [List.mem_cons, not_or]
            exact ⟨fun e => hc e.symm, h2 p (by simp)⟩
          · exact h2 q (by simp [hq])

theorem splitComma_join (parts : List (List Char)) (hne : parts ≠ []) (h : ∀ p ∈ parts, ',' ∉ p) :
    splitComma ([','].intercalate parts) = parts := by
  have base : ∀ p : List Char, ',' ∉ p → splitComma p = [p] := by
    intro p
    induction p with
    | nil => intro _; rfl
    | cons c p ih =>
      intro hp
      simp only [List.mem_cons, not_or] at hp
      simp only [splitComma]
      rw [if_neg (fun e => hp.1 e.symm), ih hp.2]
  have app : ∀ p r : List Char, ',' ∉ p → splitComma (p ++ ',' :: r) = p :: splitComma r := by
    intro p r
    induction p with
    | nil => intro _; simp [splitComma]
    | cons c p ih =>
      intro hp
      simp only [List.mem_cons, not_or] at hp
      simp only [splitComma, List.cons_append]
      rw [if_neg (fun e => hp.1 e.symm), ih hp.2]
  induction parts with
  | nil => exact absurd rfl hne
  | cons p ps ih =>
    cases ps with
    | nil => simpa [List.intercalate] using base p (h p (by simp))
    | cons q qs =>
      have := ih (by simp) (fun x hx => h x (by simp [hx]))
      rw [show [','].intercalate (p :: q :: qs) = p ++ ',' :: [','].intercalate (q :: qs) by simp [List.intercalate],
        app p _ (h p (by simp)), this]

theorem readCat_iff (j : Json F) (l : List String) : readCat j = some l ↔ IsCat j l := by
  have hc : ∀ parts : List (List Char), categories (parts.map String.ofList) = (parts.filter (· ≠ [])).map String.ofList := by
    intro parts
    unfold categories
    rw [List.filter_map]
    congr 1
    apply List.filter_congr
    intro p _
    simp [Function.comp]
  unfold IsCat
  cases j with
  | str s =>
    simp only [readCat, Option.some.injEq, Json.str.injEq]
    constructor
    · rintro rfl
      obtain ⟨h1, h2⟩ := splitComma_spec s.toList
      exact ⟨s, _, rfl, splitComma_ne _, h1, h2, hc _⟩
    · rintro ⟨s', parts, rfl, hne, hi, hp, rfl⟩
      rw [← hi, splitComma_join parts hne hp, hc]
  | _ => simp [readCat]

theorem readMap_iff (cast : Int → F) (j : Json F) (m : Args F) : readMap cast j = some m ↔ IsMap cast j m := by
  unfold IsMap; cases j <;> simp [readMap, eq_comm]

theorem readFrameId_iff (j : Json F) (s : String) : readFrameId j = some s ↔ IsFrameId j s := by
  unfold readFrameId IsFrameId
  cases h : readI64 j with
  | some i =>
    have hi := (readI64_iff j i).1 h
    constructor
    · intro e; cases e; exact .inl ⟨i, hi, rfl⟩
    · rintro (⟨i', hi', rfl⟩ | rfl)
      · rw [(readI64_iff j i').2 hi'] at h; cases h; rfl
      · cases h
  | none =>
    simp only [readStr_iff, IsStr]
    constructor
    · exact .inr
    · rintro (⟨i, hi, -⟩ | h')
      · rw [(readI64_iff j i).2 hi] at h; cases h
      · exact h'

theorem readAll_iff {α : Type} (r : Json F → Option α) (l : List (Json F)) : ∀ xs : List α,
    readAll r l = some xs ↔ List.Forall₂ (fun j x => r j = some x) l xs := by
  induction l with
  | nil => intro xs; simp [readAll, eq_comm]
  | cons j l ih =>
    intro xs
    simp only [readAll]
    cases hj : r j with
    | none => simp [List.forall₂_cons_left_iff, hj]
    | some x =>
      cases hl : readAll r l with
      | none =>
        simp only [reduceCtorEq, false_iff]
        intro h
        rw [List.forall₂_cons_left_iff] at h
        obtain ⟨y, ys, hy, hys, rfl⟩ := h
        rw [← ih, hl] at hys; cases hys
      | some ys =>
        simp only [Option.some.injEq]
        constructor
        · rintro rfl; exact .cons hj ((ih ys).1 hl)
        · intro h
          rw [List.forall₂_cons_left_iff] at h
          obtain ⟨y, zs, hy, hzs, rfl⟩ := h
          rw [← ih, hl] at hzs; cases hzs; rw [hj] at hy; cases hy; rfl

theorem inline_iff (j : Json F) (s : String) :
    readInline j = some s ↔ IsInline j s := by
  unfold IsInline readInline
  cases j with
  | arr l =>
    simp only [Option.map_eq_some_iff, Json.arr.injEq, readAll_iff]
    constructor
    · rintro ⟨xs, h, rfl⟩
      refine ⟨xs, ?_, rfl⟩
      induction h with
      | nil => rfl
      | cons a _ ih => rw [List.map_cons, ← ih, ← (readStr_iff _ _).1 a]
    · rintro ⟨xs, rfl, rfl⟩
      refine ⟨xs, ?_, rfl⟩
      rw [List.forall₂_map_left_iff]
      exact List.forall₂_same.2 fun x _ => rfl
  | _ => simp

theorem readStack_iff (a b : String) (hab : a ≠ b) (o : Entries F) (x : Option String) :
    readStack a b o = x ↔ IsStack o a b x := by
  have key : ∀ s, readStack a b o = some s ↔
      ∃ k j, (o.filter fun e => e.1 == a || e.1 == b).head? = some (k, j) ∧
        ((k = a ∧ IsFrameId j s) ∨ (k = b ∧ IsInline j s)) := by
    intro s
    unfold readStack
    rw [List.head?_filter]
    cases hf : o.find? (fun e => e.1 == a || e.1 == b) with
    | none => simp
    | some e =>
      obtain ⟨k, j⟩ := e
      have hk : k = a ∨ k = b := by simpa using List.find?_some hf
      simp only [Option.some.injEq, Prod.mk.injEq]
      rcases hk with rfl | rfl
      · simp only [beq_self_eq_true, if_true, readFrameId_iff]
        constructor
        · intro h; exact ⟨k, j, ⟨rfl, rfl⟩, .inl ⟨rfl, h⟩⟩
        · rintro ⟨k', j', ⟨rfl, rfl⟩, ⟨-, h⟩ | ⟨h, -⟩⟩
          · exact h
          · exact absurd h hab
      · have : (k == a) = false := by simpa using fun e => hab e.symm
        rw [this]
        simp only [Bool.false_eq_true, if_false]
        rw [inline_iff]
        constructor
        · intro h; exact ⟨k, j, ⟨rfl, rfl⟩, .inr ⟨rfl, h⟩⟩
        · rintro ⟨k', j', ⟨rfl, rfl⟩, ⟨h, -⟩ | ⟨-, h⟩⟩
          · exact absurd h.symm hab
          · exact h
  unfold IsStack
  constructor
  · rintro rfl; exact key
  · intro h
    apply Option.ext
    intro s
    rw [key, h]

theorem isStack_others (known : List String) (o : Entries F) (a b : String) (ha : a ∉ known) (hb : b ∉ known)
    (x : Option String) : IsStack (others known o) a b x ↔ IsStack o a b x := by
  unfold IsStack others
  rw [List.filter_filter]
  have : (fun e : String × Json F => (e.1 == a || e.1 == b) && !decide (e.1 ∈ known)) = fun e => e.1 == a || e.1 == b := by
    funext e
    by_cases h : e.1 = a
    · simp [h, ha]
    · by_cases h' : e.1 = b
      · simp [h', hb]
      · simp [h, h']
  rw [this]

/-! ## Events -/

theorem tagged_iff (tag : String) (l : Entries F) (j : Json F) (rest : Entries F) :
    tagged tag l = some (j, rest) ↔ occ l tag = [j] ∧ rest = others [tag] l := by
  unfold tagged
  rw [visit_eq]
  by_cases h : ∀ k ∈ [tag], (occ l k).length ≤ 1
  · rw [if_pos h]
    simp only [lookup_occ, Option.map_eq_some_iff, Prod.mk.injEq]
    have := occ_known [tag] l tag (by simp)
    simp only [List.mem_singleton] at this ⊢
    rw [this]
    have h1 := h tag (by simp)
    match ho : occ l tag with
    | [] => simp
    | [a] => simp [others, eq_comm]
    | a :: b :: t => rw [ho] at h1; simp at h1
  · rw [if_neg h]
    simp only [reduceCtorEq, false_iff]
    rintro ⟨h', -⟩
    exact h (by simp [h'])

theorem readDuration_iff (cast : Int → F) (l : Entries F) (d : DurEvent F) :
    readDuration cast l = some d ↔ ReadsDuration cast l d := by
  unfold readDuration
  rw [visit_eq]
  by_cases h : ∀ k ∈ durFields, (occ l k).length ≤ 1
  · rw [if_pos h]
    have e1 := fun x => required_iff readI32 IsI32 readI32_iff durFields l "pid" (by simp [durFields]) (h _ (by simp [durFields])) x
    have e2 := fun x => required_iff readI32 IsI32 readI32_iff durFields l "tid" (by simp [durFields]) (h _ (by simp [durFields])) x
    have e3 := fun x => required_iff (readF64 cast) _ (readF64_iff cast) durFields l "ts" (by simp [durFields]) (h _ (by simp [durFields])) x
    have e4 := fun x => optional_iff readStr IsStr readStr_iff durFields l "name" (by simp [durFields]) (h _ (by simp [durFields])) rfl x
    have e5 := fun x => optional_iff readCat IsCat readCat_iff durFields l "cat" (by simp [durFields]) (h _ (by simp [durFields])) rfl x
    have e6 := fun x => optional_iff (readF64 cast) _ (readF64_iff cast) durFields l "tts" (by simp [durFields]) (h _ (by simp [durFields])) rfl x
    have e7 := fun x => optional_iff (readMap cast) _ (readMap_iff cast) durFields l "args" (by simp [durFields]) (h _ (by simp [durFields])) rfl x
    have e8 := fun x => (readStack_iff "sf" "stack" (by decide) (others durFields l) x).trans
      (isStack_others durFields l "sf" "stack" (by simp [durFields]) (by simp [durFields]) x)
    constructor
    · intro hd
      simp only at hd
      split at hd
      · rename_i p1 p2 p3 p4 p5 p6 p7
        simp only [Option.some.injEq] at hd
        subst hd
        exact ⟨(e1 _).1 p1, (e2 _).1 p2, (e3 _).1 p3, (e4 _).1 p4, (e5 _).1 p5, (e6 _).1 p6, (e7 _).1 p7, (e8 _).1 rfl⟩
      · cases hd
    · rintro ⟨p1, p2, p3, p4, p5, p6, p7, p8⟩
      simp only [(e1 _).2 p1, (e2 _).2 p2, (e3 _).2 p3, (e4 _).2 p4, (e5 _).2 p5, (e6 _).2 p6, (e7 _).2 p7]
      have := (e8 _).2 p8
      unfold others at this
      rw [this]
  · rw [if_neg h]
    simp only [reduceCtorEq, false_iff]
    rintro ⟨p1, p2, p3, p4, p5, p6, p7, p8⟩
    refine h fun k hk => ?_
    simp only [durFields, List.mem_cons, List.not_mem_nil, or_false] at hk
    rcases hk with rfl | rfl | rfl | rfl | rfl | rfl | rfl
    exacts [has_le p1, has_le p2, has_le p3, may_le p4, may_le p5, may_le p6, may_le p7]

theorem readsDuration_others (cast : Int → F) (known : List String) (l : Entries F) (d : DurEvent F)
    (h : ∀ k ∈ durFields ++ ["sf", "stack"], k ∉ known) :
    ReadsDuration cast (others known l) d ↔ ReadsDuration cast l d := by
  have e : ∀ k ∈ durFields ++ ["sf", "stack"], occ (others known l) k = occ l k := fun k hk => occ_others known l k (h k hk)
  have hs := isStack_others known l "sf" "stack" (h _ (by simp)) (h _ (by simp)) d.stackTrace
  constructor
  · rintro ⟨p1, p2, p3, p4, p5, p6, p7, p8⟩
    exact ⟨(has_congr (e _ (by simp [durFields])) _ _).1 p1, (has_congr (e _ (by simp [durFields])) _ _).1 p2,
      (has_congr (e _ (by simp [durFields])) _ _).1 p3, (may_congr (e _ (by simp [durFields])) _ _).1 p4,
      (may_congr (e _ (by simp [durFields])) _ _).1 p5, (may_congr (e _ (by simp [durFields])) _ _).1 p6,
      (may_congr (e _ (by simp [durFields])) _ _).1 p7, hs.1 p8⟩
  · rintro ⟨p1, p2, p3, p4, p5, p6, p7, p8⟩
    exact ⟨(has_congr (e _ (by simp [durFields])) _ _).2 p1, (has_congr (e _ (by simp [durFields])) _ _).2 p2,
      (has_congr (e _ (by simp [durFields])) _ _).2 p3, (may_congr (e _ (by simp [durFields])) _ _).2 p4,
      (may_congr (e _ (by simp [durFields])) _ _).2 p5, (may_congr (e _ (by simp [durFields])) _ _).2 p6,
      (may_congr (e _ (by simp [durFields])) _ _).2 p7, hs.2 p8⟩

theorem readComplete_iff (cast : Int → F) (l : Entries F) (ev : Event F) :
    readComplete cast l = some ev ↔ ∃ d dur tdur est, ev = .x d dur tdur est ∧ ReadsDuration cast l d ∧
      Has l "dur" (IsNum cast) dur ∧ May l "tdur" (IsNum cast) tdur ∧ IsStack l "esf" "estack" est := by
  unfold readComplete
  rw [visit_eq]
  by_cases h : ∀ k ∈ ["dur", "tdur"], (occ l k).length ≤ 1
  · rw [if_pos h]
    have e1 := fun d => (readDuration_iff cast (others ["dur", "tdur"] l) d).trans
      (readsDuration_others cast ["dur", "tdur"] l d (by simp [durFields]))
    have e2 := fun x => required_iff (readF64 cast) _ (readF64_iff cast) ["dur", "tdur"] l "dur" (by simp) (h _ (by simp)) x
    have e3 := fun x => optional_iff (readF64 cast) _ (readF64_iff cast) ["dur", "tdur"] l "tdur" (by simp) (h _ (by simp)) rfl x
    have e4 := fun x => (readStack_iff "esf" "estack" (by decide) (others ["dur", "tdur"] l) x).trans
      (isStack_others ["dur", "tdur"] l "esf" "estack" (by simp) (by simp) x)
    unfold others at e1 e4
    constructor
    · intro hd
      simp only at hd
      split at hd
      · rename_i p1 p2 p3
        simp only [Option.some.injEq] at hd
        subst hd
        exact ⟨_, _, _, _, rfl, (e1 _).1 p1, (e2 _).1 p2, (e3 _).1 p3, (e4 _).1 rfl⟩
      · cases hd
    · rintro ⟨d, dur, tdur, est, rfl, p1, p2, p3, p4⟩
      simp only [(e1 _).2 p1, (e2 _).2 p2, (e3 _).2 p3, (e4 _).2 p4]
  · rw [if_neg h]
    simp only [reduceCtorEq, false_iff]
    rintro ⟨d, dur, tdur, est, rfl, p1, p2, p3, p4⟩
    refine h fun k hk => ?_
    simp only [List.mem_cons, List.not_mem_nil, or_false] at hk
    rcases hk with rfl | rfl
    exacts [has_le p2, may_le p3]

theorem readOptions_iff (cast : Int → F) (l : Entries F) (m : MetaOpts F) :
    readOptions cast l = some m ↔ ReadsOptions cast l m := by
  unfold readOptions
  rw [visit_eq]
  by_cases h : ∀ k ∈ ["cat", "ts", "tts"], (occ l k).length ≤ 1
  · rw [if_pos h]
    have e1 := fun x => optional_iff readCat IsCat readCat_iff ["cat", "ts", "tts"] l "cat" (by simp) (h _ (by simp)) rfl x
    have e2 := fun x => optional_iff (readF64 cast) _ (readF64_iff cast) ["cat", "ts", "tts"] l "ts" (by simp) (h _ (by simp)) rfl x
    have e3 := fun x => optional_iff (readF64 cast) _ (readF64_iff cast) ["cat", "ts", "tts"] l "tts" (by simp) (h _ (by simp)) rfl x
    constructor
    · intro hd
      simp only at hd
      split at hd
      · rename_i p1 p2 p3
        simp only [Option.some.injEq] at hd
        subst hd
        exact ⟨(e1 _).1 p1, (e2 _).1 p2, (e3 _).1 p3⟩
      · cases hd
    · rintro ⟨p1, p2, p3⟩
      simp only [(e1 _).2 p1, (e2 _).2 p2, (e3 _).2 p3]
  · rw [if_neg h]
    simp only [reduceCtorEq, false_iff]
    rintro ⟨p1, p2, p3⟩
    refine h fun k hk => ?_
    simp only [List.mem_cons, List.not_mem_nil, or_false] at hk
    rcases hk with rfl | rfl | rfl
    exacts [may_le p1, may_le p2, may_le p3]

theorem readArgs_iff {α : Type} (cast : Int → F) (field : String) (r : Json F → Option α) (P : Json F → α → Prop)
    (hr : ∀ j x, r j = some x ↔ P j x) (j : Json F) (x : α × Args F) :
    readArgs cast field r j = some x ↔ IsArgs cast field P j x := by
  unfold IsArgs
  cases j with
  | obj l =>
    simp only [readArgs, Json.obj.injEq]
    rw [visit_eq]
    have ef : (l.filter fun e => !decide (e.1 ∈ [field])) = l.filter fun e => e.1 != field := by
      congr 1; funext e; by_cases h : e.1 = field <;> simp [h]
    by_cases h : ∀ k ∈ [field], (occ l k).length ≤ 1
    · rw [if_pos h]
      have e1 := fun x => required_iff r P hr [field] l field (by simp) (h _ (by simp)) x
      simp only [Option.map_eq_some_iff, e1, ef]
      obtain ⟨a, m⟩ := x
      simp only [Prod.mk.injEq]
      constructor
      · rintro ⟨a', h1, rfl, rfl⟩; exact ⟨l, rfl, h1, rfl⟩
      · rintro ⟨l', rfl, h1, h2⟩; exact ⟨a, h1, rfl, h2.symm⟩
    · rw [if_neg h]
      simp only [reduceCtorEq, false_iff]
      rintro ⟨l', rfl, h1, -⟩
      exact h (by simpa using has_le h1)
  | _ => simp [readArgs]

theorem readMetaWith_iff {α : Type} (cast : Int → F) (mand opt : String) (hm : mand ∈ ["pid", "tid"]) (ho : opt ∈ ["pid", "tid"])
    (args : Json F → Option (α × Args F)) (P : Json F → α × Args F → Prop) (hP : ∀ j x, args j = some x ↔ P j x)
    (mk : Int → α → Args F → Option Int → MetaOpts F → MetaEvent F) (l : Entries F) (ev : Event F) :
    readMetaWith cast mand opt args mk l = some ev ↔ ∃ i x extra o opts, ev = .m (mk i x extra o opts) ∧
      Has l mand IsI32 i ∧ Has l "args" P (x, extra) ∧ May l opt IsI32 o ∧ ReadsOptions cast l opts := by
  unfold readMetaWith
  rw [visit_eq]
  have hnot : ∀ k ∈ ["cat", "ts", "tts"], k ∉ [mand, "args", opt] := by
    intro k hk
    simp only [List.mem_cons, List.not_mem_nil, or_false] at hk hm ho
    rcases hk with rfl | rfl | rfl <;> rcases hm with rfl | rfl <;> rcases ho with rfl | rfl <;> decide
  have hopts : ∀ m, readOptions cast (l.filter fun e => !decide (e.1 ∈ [mand, "args", opt])) = some m ↔ ReadsOptions cast l m := by
    intro m
    rw [readOptions_iff]
    have e : ∀ k ∈ ["cat", "ts", "tts"], occ (others [mand, "args", opt] l) k = occ l k :=
      fun k hk => occ_others _ l k (hnot k hk)
    unfold others at e
    constructor
    · rintro ⟨p1, p2, p3⟩
      exact ⟨(may_congr (e _ (by simp)) _ _).1 p1, (may_congr (e _ (by simp)) _ _).1 p2, (may_congr (e _ (by simp)) _ _).1 p3⟩
    · rintro ⟨p1, p2, p3⟩
      exact ⟨(may_congr (e _ (by simp)) _ _).2 p1, (may_congr (e _ (by simp)) _ _).2 p2, (may_congr (e _ (by simp)) _ _).2 p3⟩
  by_cases h : ∀ k ∈ [mand, "args", opt], (occ l k).length ≤ 1
  · rw [if_pos h]
    have e1 := fun x => required_iff readI32 IsI32 readI32_iff [mand, "args", opt] l mand (by simp) (h _ (by simp)) x
    have e2 := fun x => required_iff args P hP [mand, "args", opt] l "args" (by simp) (h _ (by simp)) x
    have e3 := fun x => optional_iff readI32 IsI32 readI32_iff [mand, "args", opt] l opt (by simp) (h _ (by simp)) rfl x
    constructor
    · intro hd
      simp only at hd
      split at hd
      · rename_i p1 p2 p3 p4
        simp only [Option.some.injEq] at hd
        subst hd
        exact ⟨_, _, _, _, _, rfl, (e1 _).1 p1, (e2 _).1 p2, (e3 _).1 p3, (hopts _).1 p4⟩
      · cases hd
    · rintro ⟨i, x, extra, o, opts, rfl, p1, p2, p3, p4⟩
      simp only [(e1 _).2 p1, (e2 _).2 p2, (e3 _).2 p3, (hopts _).2 p4]
  · rw [if_neg h]
    simp only [reduceCtorEq, false_iff]
    rintro ⟨i, x, extra, o, opts, rfl, p1, p2, p3, p4⟩
    refine h fun k hk => ?_
    simp only [List.mem_cons, List.not_mem_nil, or_false] at hk
    rcases hk with rfl | rfl | rfl
    exacts [has_le p1, has_le p2, may_le p3]

theorem isKind_cases (kind : String) (n : Nat) (tag : Json F) :
    IsKind kind n tag () ↔ tag = .str kind ∨ tag = .num (.nat n) := Iff.rfl

theorem variant_iff (tag : Json F) (kind : String) (n : Nat) (h : kinds[n]? = some kind) :
    metaKind tag = some kind ↔ IsKind kind n tag () := by
  rw [isKind_cases]
  unfold metaKind
  cases tag with
  | num m =>
    cases m with
    | nat m =>
      simp only [Json.num.injEq, Num.nat.injEq, reduceCtorEq, false_or]
      have hnd : kinds.Nodup := by decide
      have hn : n < kinds.length := by
        rcases Nat.lt_or_ge n kinds.length with h' | h'
        · exact h'
        · rw [List.getElem?_eq_none h'] at h; cases h
      constructor
      · intro h'
        have h'' : kinds[m]? = some kind := h'
        exact ((List.getElem?_inj hn hnd).1 (h.trans h''.symm)).symm
      · rintro rfl; exact h
    | _ => simp
  | _ => simp

theorem readsOptions_others (cast : Int → F) (known : List String) (l : Entries F) (m : MetaOpts F)
    (h : ∀ k ∈ ["cat", "ts", "tts"], k ∉ known) : ReadsOptions cast (others known l) m ↔ ReadsOptions cast l m := by
  have e : ∀ k ∈ ["cat", "ts", "tts"], occ (others known l) k = occ l k := fun k hk => occ_others known l k (h k hk)
  constructor
  · rintro ⟨p1, p2, p3⟩
    exact ⟨(may_congr (e _ (by simp)) _ _).1 p1, (may_congr (e _ (by simp)) _ _).1 p2, (may_congr (e _ (by simp)) _ _).1 p3⟩
  · rintro ⟨p1, p2, p3⟩
    exact ⟨(may_congr (e _ (by simp)) _ _).2 p1, (may_congr (e _ (by simp)) _ _).2 p2, (may_congr (e _ (by simp)) _ _).2 p3⟩

theorem readMetaWith_others {α : Type} (cast : Int → F) (known : List String) (hk : ∀ k ∈ ["pid", "tid", "args", "cat", "ts", "tts"], k ∉ known)
    (mand opt : String) (hm : mand ∈ ["pid", "tid"]) (ho : opt ∈ ["pid", "tid"])
    (args : Json F → Option (α × Args F)) (P : Json F → α × Args F → Prop) (hP : ∀ j x, args j = some x ↔ P j x)
    (mk : Int → α → Args F → Option Int → MetaOpts F → MetaEvent F) (l : Entries F) (ev : Event F) :
    readMetaWith cast mand opt args mk (others known l) = some ev ↔ ∃ i x extra o opts, ev = .m (mk i x extra o opts) ∧
      Has l mand IsI32 i ∧ Has l "args" P (x, extra) ∧ May l opt IsI32 o ∧ ReadsOptions cast l opts := by
  rw [readMetaWith_iff cast mand opt hm ho args P hP mk]
  have e : ∀ k ∈ ["pid", "tid", "args"], occ (others known l) k = occ l k :=
    fun k h => occ_others known l k (hk k (by simp only [List.mem_cons, List.not_mem_nil, or_false] at h ⊢; tauto))
  have em := e mand (by simp only [List.mem_cons, List.not_mem_nil, or_false] at hm ⊢; tauto)
  have eo := e opt (by simp only [List.mem_cons, List.not_mem_nil, or_false] at ho ⊢; tauto)
  have ea := e "args" (by simp)
  have eopts := fun m => readsOptions_others cast known l m
    (fun k h => hk k (by simp only [List.mem_cons, List.not_mem_nil, or_false] at h ⊢; tauto))
  simp only [has_congr em, has_congr ea, may_congr eo, eopts]

theorem readMeta_iff (cast : Int → F) (l : Entries F) (ev : Event F) :
    readMeta cast l = some ev ↔ ∃ m, ev = .m m ∧ ReadsMeta cast l m := by
  unfold readMeta
  have h1 : ∀ k ∈ ["pid", "tid", "args", "cat", "ts", "tts"], k ∉ ["name"] := by decide
  have hpn := readMetaWith_others cast ["name"] h1 "pid" "tid" (by simp) (by simp) _ _
    (readArgs_iff cast "name" readStr IsStr readStr_iff) .processName l ev
  have hpl := readMetaWith_others cast ["name"] h1 "pid" "tid" (by simp) (by simp) _ _
    (readArgs_iff cast "labels" readStr IsStr readStr_iff) (fun _ _ _ _ _ => .other "process_labels") l ev
  have hps := readMetaWith_others cast ["name"] h1 "pid" "tid" (by simp) (by simp) _ _
    (readArgs_iff cast "sort_order" readI64 IsI64 readI64_iff) (fun _ _ _ _ _ => .other "process_sort_index") l ev
  have htn := readMetaWith_others cast ["name"] h1 "tid" "pid" (by simp) (by simp) _ _
    (readArgs_iff cast "name" readStr IsStr readStr_iff) .threadName l ev
  have hts := readMetaWith_others cast ["name"] h1 "tid" "pid" (by simp) (by simp) _ _
    (readArgs_iff cast "sort_order" readI64 IsI64 readI64_iff) (fun _ _ _ _ _ => .other "thread_sort_index") l ev
  cases ht : tagged "name" l with
  | none =>
    simp only [reduceCtorEq, false_iff]
    rintro ⟨m, rfl, h⟩
    have : ∃ kind n, Has l "name" (IsKind kind n) () := by
      cases m with
      | processName => exact ⟨_, _, h.1⟩
      | threadName => exact ⟨_, _, h.1⟩
      | other k => rcases h.2 with h | h | h <;> exact ⟨_, _, h.2.1⟩
    obtain ⟨kind, n, j, hj, -⟩ := this
    rw [(tagged_iff "name" l j _).2 ⟨hj, rfl⟩] at ht
    cases ht
  | some p =>
    obtain ⟨tag, rest⟩ := p
    obtain ⟨hocc, rfl⟩ := (tagged_iff "name" l tag rest).1 ht
    simp only
    have v0 := variant_iff tag "process_name" 0 rfl
    have v1 := variant_iff tag "process_labels" 1 rfl
    have v2 := variant_iff tag "process_sort_index" 2 rfl
    have v3 := variant_iff tag "thread_name" 3 rfl
    have v4 := variant_iff tag "thread_sort_index" 4 rfl
    generalize metaKind tag = variant at v0 v1 v2 v3 v4 ⊢
    have hk : ∀ kind n, Has l "name" (IsKind kind n) () ↔ IsKind kind n tag () := by
      intro kind n
      unfold Has
      rw [hocc]
      simp
    have neg : ∀ m, ReadsMeta cast l m → variant ∈ ([some "process_name", some "process_labels", some "process_sort_index",
        some "thread_name", some "thread_sort_index"] : List (Option String)) := by
      intro m h
      simp only [List.mem_cons, List.not_mem_nil, or_false]
      cases m with
      | processName => exact .inl (v0.2 ((hk _ _).1 h.1))
      | threadName => exact .inr (.inr (.inr (.inl (v3.2 ((hk _ _).1 h.1)))))
      | other k =>
        rcases h.2 with h | h | h
        · exact .inr (.inl (v1.2 ((hk _ _).1 h.2.1)))
        · exact .inr (.inr (.inl (v2.2 ((hk _ _).1 h.2.1))))
        · exact .inr (.inr (.inr (.inr (v4.2 ((hk _ _).1 h.2.1)))))
    split
    · rw [hpn]
      constructor
      · rintro ⟨i, x, extra, o, opts, rfl, p⟩
        exact ⟨_, rfl, (hk _ _).2 (v0.1 rfl), p⟩
      · rintro ⟨m, rfl, h⟩
        cases m with
        | processName => exact ⟨_, _, _, _, _, rfl, h.2⟩
        | threadName => exact absurd (v3.2 ((hk _ _).1 h.1)) (by decide)
        | other k =>
          rcases h.2 with h | h | h
          · exact absurd (v1.2 ((hk _ _).1 h.2.1)) (by decide)
          · exact absurd (v2.2 ((hk _ _).1 h.2.1)) (by decide)
          · exact absurd (v4.2 ((hk _ _).1 h.2.1)) (by decide)
    · rw [hpl]
      constructor
      · rintro ⟨i, x, extra, o, opts, rfl, p1, p2, p3, p4⟩
        exact ⟨_, rfl, ⟨_, p4⟩, .inl ⟨rfl, (hk _ _).2 (v1.1 rfl), ⟨_, p1⟩, ⟨_, p2⟩, ⟨_, p3⟩⟩⟩
      · rintro ⟨m, rfl, h⟩
        cases m with
        | processName => exact absurd (v0.2 ((hk _ _).1 h.1)) (by decide)
        | threadName => exact absurd (v3.2 ((hk _ _).1 h.1)) (by decide)
        | other k =>
          obtain ⟨⟨opts, ho⟩, h⟩ := h
          rcases h with ⟨rfl, -, ⟨i, p1⟩, ⟨⟨x, e⟩, p2⟩, ⟨t, p3⟩⟩ | h | h
          · exact ⟨i, x, e, t, opts, rfl, p1, p2, p3, ho⟩
          · exact absurd (v2.2 ((hk _ _).1 h.2.1)) (by decide)
          · exact absurd (v4.2 ((hk _ _).1 h.2.1)) (by decide)
    · rw [hps]
      constructor
      · rintro ⟨i, x, extra, o, opts, rfl, p1, p2, p3, p4⟩
        exact ⟨_, rfl, ⟨_, p4⟩, .inr (.inl ⟨rfl, (hk _ _).2 (v2.1 rfl), ⟨_, p1⟩, ⟨_, p2⟩, ⟨_, p3⟩⟩)⟩
      · rintro ⟨m, rfl, h⟩
        cases m with
        | processName => exact absurd (v0.2 ((hk _ _).1 h.1)) (by decide)
        | threadName => exact absurd (v3.2 ((hk _ _).1 h.1)) (by decide)
        | other k =>
          obtain ⟨⟨opts, ho⟩, h⟩ := h
          rcases h with h | ⟨rfl, -, ⟨i, p1⟩, ⟨⟨x, e⟩, p2⟩, ⟨t, p3⟩⟩ | h
          · exact absurd (v1.2 ((hk _ _).1 h.2.1)) (by decide)
          · exact ⟨i, x, e, t, opts, rfl, p1, p2, p3, ho⟩
          · exact absurd (v4.2 ((hk _ _).1 h.2.1)) (by decide)
    · rw [htn]
      constructor
      · rintro ⟨i, x, extra, o, opts, rfl, p⟩
        exact ⟨_, rfl, (hk _ _).2 (v3.1 rfl), p⟩
      · rintro ⟨m, rfl, h⟩
        cases m with
        | threadName => exact ⟨_, _, _, _, _, rfl, h.2⟩
        | processName => exact absurd (v0.2 ((hk _ _).1 h.1)) (by decide)
        | other k =>
          rcases h.2 with h | h | h
          · exact absurd (v1.2 ((hk _ _).1 h.2.1)) (by decide)
          · exact absurd (v2.2 ((hk _ _).1 h.2.1)) (by decide)
          · exact absurd (v4.2 ((hk _ _).1 h.2.1)) (by decide)
    · rw [hts]
      constructor
      · rintro ⟨i, x, extra, o, opts, rfl, p1, p2, p3, p4⟩
        exact ⟨_, rfl, ⟨_, p4⟩, .inr (.inr ⟨rfl, (hk _ _).2 (v4.1 rfl), ⟨_, p1⟩, ⟨_, p2⟩, ⟨_, p3⟩⟩)⟩
      · rintro ⟨m, rfl, h⟩
        cases m with
        | processName => exact absurd (v0.2 ((hk _ _).1 h.1)) (by decide)
        | threadName => exact absurd (v3.2 ((hk _ _).1 h.1)) (by decide)
        | other k =>
          obtain ⟨⟨opts, ho⟩, h⟩ := h
          rcases h with h | h | ⟨rfl, -, ⟨i, p1⟩, ⟨⟨x, e⟩, p2⟩, ⟨t, p3⟩⟩
          · exact absurd (v1.2 ((hk _ _).1 h.2.1)) (by decide)
          · exact absurd (v2.2 ((hk _ _).1 h.2.1)) (by decide)
          · exact ⟨i, x, e, t, opts, rfl, p1, p2, p3, ho⟩
    · rename_i n0 n1 n2 n3 n4
      simp only [reduceCtorEq, false_iff]
      rintro ⟨m, rfl, h⟩
      have := neg m h
      simp only [List.mem_cons, List.not_mem_nil, or_false] at this
      rcases this with h | h | h | h | h
      · exact n0 h
      · exact n1 h
      · exact n2 h
      · exact n3 h
      · exact n4 h

theorem readsMeta_others (cast : Int → F) (known : List String)
    (hk : ∀ k ∈ ["name", "pid", "tid", "args", "cat", "ts", "tts"], k ∉ known) (l : Entries F) (m : MetaEvent F) :
    ReadsMeta cast (others known l) m ↔ ReadsMeta cast l m := by
  have e : ∀ k ∈ ["name", "pid", "tid", "args", "cat", "ts", "tts"], occ (others known l) k = occ l k :=
    fun k h => occ_others known l k (hk k h)
  have eo := fun m => readsOptions_others cast known l m
    (fun k h => hk k (by simp only [List.mem_cons, List.not_mem_nil, or_false] at h ⊢; tauto))
  have e1 := e "name" (by simp)
  have e2 := e "pid" (by simp)
  have e3 := e "tid" (by simp)
  have e4 := e "args" (by simp)
  cases m <;> simp only [ReadsMeta, eo, has_congr e1, has_congr e2, has_congr e3, has_congr e4, may_congr e2, may_congr e3]

/-- **C74.** An event of the trace file is read exactly if it is written as the specification `Reads` says, and then as
the event with those fields. -/
theorem c74_reads (cast : Int → F) (j : Json F) (ev : Event F) : readEvent cast j = some ev ↔ Reads cast j ev := by
  cases j with
  | obj o =>
    simp only [readEvent, Reads, Json.obj.injEq, exists_eq_left']
    have hnot : ∀ k ∈ durFields ++ ["sf", "stack"], k ∉ ["ph"] := by decide
    cases ht : tagged "ph" o with
    | none =>
      simp only [reduceCtorEq, false_iff]
      intro h
      have : ∃ s, Has o "ph" IsStr s := by
        cases ev with
        | _ => exact ⟨_, h.1⟩
      obtain ⟨s, j, hj, -⟩ := this
      rw [(tagged_iff "ph" o j _).2 ⟨hj, rfl⟩] at ht
      cases ht
    | some p =>
      obtain ⟨ph, rest⟩ := p
      obtain ⟨hocc, rfl⟩ := (tagged_iff "ph" o ph rest).1 ht
      simp only
      have hp : ∀ s, Has o "ph" IsStr s ↔ ph = .str s := by
        intro s; unfold Has IsStr; rw [hocc]; simp
      have hd := fun d => (readDuration_iff cast (others ["ph"] o) d).trans (readsDuration_others cast ["ph"] o d hnot)
      have hx : readComplete cast (others ["ph"] o) = some ev ↔ ∃ d dur tdur est, ev = .x d dur tdur est ∧
          ReadsDuration cast o d ∧ Has o "dur" (IsNum cast) dur ∧ May o "tdur" (IsNum cast) tdur ∧
          IsStack o "esf" "estack" est := by
        rw [readComplete_iff]
        simp only [readsDuration_others cast ["ph"] o _ hnot, has_congr (occ_others ["ph"] o "dur" (by simp)),
          may_congr (occ_others ["ph"] o "tdur" (by simp)),
          isStack_others ["ph"] o "esf" "estack" (by simp) (by simp)]
      have hm : readMeta cast (others ["ph"] o) = some ev ↔ ∃ m, ev = .m m ∧ ReadsMeta cast o m := by
        rw [readMeta_iff]
        simp only [readsMeta_others cast ["ph"] (by decide) o]
      split
      · simp only [Option.map_eq_some_iff, hd]
        cases ev <;> simp [hp]
      · simp only [Option.map_eq_some_iff, hd]
        cases ev <;> simp [hp]
      · rw [hx]
        cases ev <;> simp [hp]
      · rw [hm]
        cases ev <;> simp [hp]
      · rename_i n0 n1 n2 n3
        simp only [reduceCtorEq, false_iff]
        cases ev with
        | b d => exact fun h => n0 ((hp _).1 h.1)
        | e d => exact fun h => n1 ((hp _).1 h.1)
        | x d a b c => exact fun h => n2 ((hp _).1 h.1)
        | m m => exact fun h => n3 ((hp _).1 h.1)
  | _ => simp [readEvent, Reads]

/-! ## Maps -/

theorem mapInsert_keys {α : Type} (k : String) (v : α) (m : List (String × α)) :
    (mapInsert k v m).map (·.1) = if k ∈ m.map (·.1) then m.map (·.1) else m.map (·.1) ++ [k] := by
  induction m with
  | nil => simp [mapInsert]
  | cons e m ih =>
    obtain ⟨k', v'⟩ := e
    simp only [mapInsert]
    by_cases h : k' = k
    · simp [h]
    · rw [if_neg h]
      simp only [List.map_cons, ih, List.mem_cons]
      have : ¬ k = k' := fun e => h e.symm
      by_cases hm : k ∈ m.map (·.1) <;> simp [hm, this]

theorem mapInsert_lookup {α : Type} (k : String) (v : α) (m : List (String × α)) (k' : String) :
    (mapInsert k v m).lookup k' = if k' = k then some v else m.lookup k' := by
  induction m with
  | nil =>
    simp only [mapInsert, List.lookup_cons, List.lookup_nil]
    by_cases h : k' = k
    · simp [h]
    · have h2 : (k' == k) = false := by simpa using h
      simp [h, h2]
  | cons e m ih =>
    obtain ⟨k₁, v₁⟩ := e
    simp only [mapInsert]
    by_cases h : k₁ = k
    · rw [if_pos h]
      subst h
      simp only [List.lookup_cons]
      by_cases h : k' = k₁
      · simp [h]
      · have h2 : (k' == k₁) = false := by simpa using h
        simp [h, h2]
    · rw [if_neg h]
      simp only [List.lookup_cons, ih]
      by_cases h' : k' = k
      · subst h'
        have : (k' == k₁) = false := by simpa using fun e => h e.symm
        simp [this]
      · simp [h']

theorem toMap_gen (cast : Int → F) (l : Entries F) : ∀ m : Args F, (m.map (·.1)).Nodup →
    ((l.foldl (fun m e => mapInsert e.1 (toValue cast e.2) m) m).map (·.1)).Nodup ∧
    ∀ k, (l.foldl (fun m e => mapInsert e.1 (toValue cast e.2) m) m).lookup k =
      match (occ l k).getLast? with
      | some j => some (toValue cast j)
      | none => m.lookup k := by
  induction l with
  | nil => intro m hm; exact ⟨hm, fun k => rfl⟩
  | cons e l ih =>
    obtain ⟨k₀, v⟩ := e
    intro m hm
    have hn : ((mapInsert k₀ (toValue cast v) m).map (·.1)).Nodup := by
      rw [mapInsert_keys]
      split
      · exact hm
      · rename_i hk
        rw [List.nodup_append]
        refine ⟨hm, by simp, ?_⟩
        intro a ha b hb e
        simp only [List.mem_singleton] at hb
        exact hk (by rw [← hb, ← e]; exact ha)
    obtain ⟨h1, h2⟩ := ih _ hn
    refine ⟨h1, fun k => ?_⟩
    simp only [List.foldl_cons]
    rw [h2 k, occ_cons, mapInsert_lookup]
    by_cases h : k₀ = k
    · subst h
      simp only [if_true]
      cases hl : (occ l k₀).getLast? with
      | none => rw [List.getLast?_eq_none_iff] at hl; simp [hl]
      | some j => rw [List.getLast?_append, hl]; simp
    · have h' : ¬ k = k₀ := fun e => h e.symm
      simp only [if_neg h, if_neg h', List.nil_append]

/-- **C74.** Of several values for one key in an `args` object (or at the top of the document) the last one counts, and
each key is kept once. -/
theorem c74_map (cast : Int → F) (l : Entries F) :
    KeysDistinct (toMap cast l) ∧ ∀ k, (toMap cast l).lookup k = (occ l k).getLast?.map (toValue cast) := by
  obtain ⟨h1, h2⟩ := toMap_gen cast l [] (by simp)
  refine ⟨h1, fun k => ?_⟩
  unfold toMap
  rw [h2 k]
  cases (occ l k).getLast? <;> rfl

/-! ## Order and unknown keys -/

/-- Keys that mean something in an event. -/
def eventKeys : List String := ["ph", "pid", "tid", "ts", "name", "cat", "tts", "args", "dur", "tdur", "sf", "stack", "esf", "estack"]

theorem reads_congr (cast : Int → F) (o o' : Entries F) (ho : ∀ k ∈ eventKeys, occ o k = occ o' k)
    (hs : (o.filter fun e => e.1 == "sf" || e.1 == "stack").head? = (o'.filter fun e => e.1 == "sf" || e.1 == "stack").head?)
    (he : (o.filter fun e => e.1 == "esf" || e.1 == "estack").head? =
      (o'.filter fun e => e.1 == "esf" || e.1 == "estack").head?) (ev : Event F)
    (h : Reads cast (.obj o) ev) : Reads cast (.obj o') ev := by
  have s1 : ∀ x, IsStack o "sf" "stack" x → IsStack o' "sf" "stack" x := by intro x; unfold IsStack; rw [hs]; exact id
  have s2 : ∀ x, IsStack o "esf" "estack" x → IsStack o' "esf" "estack" x := by intro x; unfold IsStack; rw [he]; exact id
  have hH : ∀ k ∈ eventKeys, ∀ {α : Type} {P : Json F → α → Prop} {x : α}, Has o k P x → Has o' k P x := by
    intro k hk α P x; exact (has_congr (ho k hk) P x).1
  have hM : ∀ k ∈ eventKeys, ∀ {α : Type} {P : Json F → α → Prop} {x : Option α}, May o k P x → May o' k P x := by
    intro k hk α P x; exact (may_congr (ho k hk) P x).1
  have hd : ∀ d, ReadsDuration cast o d → ReadsDuration cast o' d := by
    rintro d ⟨p1, p2, p3, p4, p5, p6, p7, p8⟩
    exact ⟨hH _ (by decide) p1, hH _ (by decide) p2, hH _ (by decide) p3, hM _ (by decide) p4, hM _ (by decide) p5,
      hM _ (by decide) p6, hM _ (by decide) p7, s1 _ p8⟩
  have hopt : ∀ m, ReadsOptions cast o m → ReadsOptions cast o' m := by
    rintro m ⟨p1, p2, p3⟩
    exact ⟨hM _ (by decide) p1, hM _ (by decide) p2, hM _ (by decide) p3⟩
  obtain ⟨o₀, e₀, h⟩ := h
  simp only [Json.obj.injEq] at e₀
  subst e₀
  refine ⟨o', rfl, ?_⟩
  cases ev with
  | b d => exact ⟨hH _ (by decide) h.1, hd _ h.2⟩
  | e d => exact ⟨hH _ (by decide) h.1, hd _ h.2⟩
  | x d dur tdur est =>
    exact ⟨hH _ (by decide) h.1, hd _ h.2.1, hH _ (by decide) h.2.2.1, hM _ (by decide) h.2.2.2.1, s2 _ h.2.2.2.2⟩
  | m m =>
    refine ⟨hH _ (by decide) h.1, ?_⟩
    replace h := h.2
    cases m with
    | processName => exact ⟨hH _ (by decide) h.1, hH _ (by decide) h.2.1, hH _ (by decide) h.2.2.1, hM _ (by decide) h.2.2.2.1,
        hopt _ h.2.2.2.2⟩
    | threadName => exact ⟨hH _ (by decide) h.1, hH _ (by decide) h.2.1, hH _ (by decide) h.2.2.1, hM _ (by decide) h.2.2.2.1,
        hopt _ h.2.2.2.2⟩
    | other k =>
      obtain ⟨⟨opts, h0⟩, h⟩ := h
      refine ⟨⟨opts, hopt _ h0⟩, ?_⟩
      rcases h with ⟨rfl, p1, ⟨a, p2⟩, ⟨b, p3⟩, ⟨c, p4⟩⟩ | ⟨rfl, p1, ⟨a, p2⟩, ⟨b, p3⟩, ⟨c, p4⟩⟩ | ⟨rfl, p1, ⟨a, p2⟩, ⟨b, p3⟩, ⟨c, p4⟩⟩
      · exact .inl ⟨rfl, hH _ (by decide) p1, ⟨a, hH _ (by decide) p2⟩, ⟨b, hH _ (by decide) p3⟩, ⟨c, hM _ (by decide) p4⟩⟩
      · exact .inr (.inl ⟨rfl, hH _ (by decide) p1, ⟨a, hH _ (by decide) p2⟩, ⟨b, hH _ (by decide) p3⟩, ⟨c, hM _ (by decide) p4⟩⟩)
      · exact .inr (.inr ⟨rfl, hH _ (by decide) p1, ⟨a, hH _ (by decide) p2⟩, ⟨b, hH _ (by decide) p3⟩, ⟨c, hM _ (by decide) p4⟩⟩)

theorem read_congr (cast : Int → F) (o o' : Entries F) (ho : ∀ k ∈ eventKeys, occ o k = occ o' k)
    (hs : (o.filter fun e => e.1 == "sf" || e.1 == "stack").head? = (o'.filter fun e => e.1 == "sf" || e.1 == "stack").head?)
    (he : (o.filter fun e => e.1 == "esf" || e.1 == "estack").head? =
      (o'.filter fun e => e.1 == "esf" || e.1 == "estack").head?) :
    readEvent cast (.obj o) = readEvent cast (.obj o') := by
  apply Option.ext
  intro ev
  rw [c74_reads, c74_reads]
  exact ⟨reads_congr cast o o' ho hs he ev, reads_congr cast o' o (fun k hk => (ho k hk).symm) hs.symm he.symm ev⟩

/-- **C74.** Keys of an event that have no meaning are ignored, whatever their values. -/
theorem c74_unknown_ignored (cast : Int → F) (l r : Entries F) (k : String) (v : Json F) (hk : k ∉ eventKeys) :
    readEvent cast (.obj (l ++ (k, v) :: r)) = readEvent cast (.obj (l ++ r)) := by
  have hne : ∀ k' ∈ eventKeys, k ≠ k' := fun k' hk' e => hk (e ▸ hk')
  refine read_congr cast _ _ ?_ ?_ ?_
  · intro k' hk'
    rw [occ_append, occ_append, occ_cons, if_neg (hne k' hk'), List.nil_append]
  · have h1 : (k == "sf") = false := by simpa using hne "sf" (by decide)
    have h2 : (k == "stack") = false := by simpa using hne "stack" (by decide)
    simp [List.filter_cons, h1, h2]
  · have h1 : (k == "esf") = false := by simpa using hne "esf" (by decide)
    have h2 : (k == "estack") = false := by simpa using hne "estack" (by decide)
    simp [List.filter_cons, h1, h2]

theorem perm_short {α : Type} {a b : List α} (h : a.Perm b) (h1 : a.length ≤ 1) : a = b := by
  match a, h1 with
  | [], _ => exact (List.nil_perm.1 h).symm
  | [x], _ => exact List.singleton_perm.1 h

theorem filter_short (o : Entries F) (hn : (o.map (·.1)).Nodup) (a b : String)
    (hab : ¬ (a ∈ o.map (·.1) ∧ b ∈ o.map (·.1))) : (o.filter fun e => e.1 == a || e.1 == b).length ≤ 1 := by
  have h1 : ((o.filter fun e => e.1 == a || e.1 == b).map (·.1)).Nodup :=
    (List.Sublist.map _ List.filter_sublist).nodup hn
  by_contra h
  match hf : o.filter fun e => e.1 == a || e.1 == b with
  | [] => rw [hf] at h; simp at h
  | [_] => rw [hf] at h; simp at h
  | x :: y :: t =>
    rw [hf] at h1
    have hx : x ∈ o.filter fun e => e.1 == a || e.1 == b := by rw [hf]; simp
    have hy : y ∈ o.filter fun e => e.1 == a || e.1 == b := by rw [hf]; simp
    simp only [List.mem_filter, Bool.or_eq_true, beq_iff_eq] at hx hy
    have hne : x.1 ≠ y.1 := by
      simp only [List.map_cons, List.nodup_cons, List.mem_cons, not_or] at h1
      exact h1.1.1
    have mx : x.1 ∈ o.map (·.1) := List.mem_map_of_mem hx.1
    have my : y.1 ∈ o.map (·.1) := List.mem_map_of_mem hy.1
    rcases hx.2 with hx2 | hx2 <;> rcases hy.2 with hy2 | hy2
    · exact hne (hx2.trans hy2.symm)
    · exact hab ⟨hx2 ▸ mx, hy2 ▸ my⟩
    · exact hab ⟨hy2 ▸ my, hx2 ▸ mx⟩
    · exact hne (hx2.trans hy2.symm)

/-- **C74.** The order of the keys of an event does not matter, provided that the event does not give two stack traces in
different notations for the same instant. -/
theorem c74_key_order (cast : Int → F) (o o' : Entries F) (hp : o.Perm o') (hn : (o.map (·.1)).Nodup)
    (hs : ¬ ("sf" ∈ o.map (·.1) ∧ "stack" ∈ o.map (·.1))) (he : ¬ ("esf" ∈ o.map (·.1) ∧ "estack" ∈ o.map (·.1))) :
    readEvent cast (.obj o) = readEvent cast (.obj o') := by
  refine read_congr cast o o' ?_ ?_ ?_
  · intro k _
    refine perm_short ((hp.filter _).map _) ?_
    have h1 : ((o.filter fun e => e.1 == k).map (·.1)).Nodup := (List.Sublist.map _ List.filter_sublist).nodup hn
    match hf : o.filter fun e => e.1 == k with
    | [] => simp [occ, hf]
    | [_] => simp [occ, hf]
    | x :: y :: t =>
      exfalso
      rw [hf] at h1
      have hx : x ∈ o.filter fun e => e.1 == k := by rw [hf]; simp
      have hy : y ∈ o.filter fun e => e.1 == k := by rw [hf]; simp
      simp only [List.mem_filter, beq_iff_eq] at hx hy
      simp only [List.map_cons, List.nodup_cons, List.mem_cons, not_or] at h1
      exact h1.1.1 (hx.2.trans hy.2.symm)
  · rw [perm_short (hp.filter _) (filter_short o hn _ _ hs)]
  · rw [perm_short (hp.filter _) (filter_short o hn _ _ he)]

end Verif.Trace.Ctf
