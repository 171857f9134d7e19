/-
Compilation database: C27 (lookups), C28 (freshness), C29 (output files).
Models cmakeperf/src/commands.rs. The words of a command line are an input here (see `Build/Shlex.lean` and
`Build/DatabaseJson.lean` for where they come from). Trusted:
`std::path` on Unix (component model of `Verif.Intern.Path`), `std::collections::HashMap`.
-/
import Verif.Intern.Path

set_option autoImplicit false
set_option linter.unusedVariables false
set_option linter.unusedSimpArgs false

namespace Verif.Build

open Verif.Intern (Name Comp pathComponents)

/-! ## C27: the database as a map -/

/-- commands.rs:153-166 `DatabaseEntry`; `words` is the command split by `shlex` (commands.rs:246-248). -/
structure Entry where
  directory : Name
  words : List Name
  file : Name
  output : Option Name
  deriving DecidableEq

/-- Paths are compared (and hashed) component by component by `std::path::Path`: `a//b` and `a/./b` are the same key. -/
def samePath (p q : Name) : Bool := decide (pathComponents p = pathComponents q)

/-- commands.rs:21 `HashMap<Box<Path>, DatabaseEntry>`, in some iteration order -/
structure Db where
  items : List (Name × Entry)

/-- `HashMap::insert`: returns the replaced value; the old key stays (std documentation). -/
def insertItem (items : List (Name × Entry)) (k : Name) (e : Entry) : Option Entry × List (Name × Entry) :=
  match items with
  | [] => (none, [(k, e)])
  | (k', e') :: rest =>
    if samePath k' k then (some e', (k', e) :: rest)
    else
      let (r, rest') := insertItem rest k e
      (r, (k', e') :: rest')

/-- commands.rs:30-37 `from_entries`: `collect()` inserts one by one -/
def Db.fromEntries (es : List Entry) : Db :=
  ⟨es.foldl (fun items e => (insertItem items e.file e).2) []⟩

/-- commands.rs:51-53 `new` -/
def Db.new : Db := ⟨[]⟩

/-- commands.rs:56-62 `push`: the boolean tells whether the assertion fails (after the insertion) -/
def Db.push (d : Db) (e : Entry) : Bool × Db :=
  let (r, items) := insertItem d.items e.file e
  (r.isSome, ⟨items⟩)

/-- commands.rs:65-67 `clear` -/
def Db.clear (_ : Db) : Db := ⟨[]⟩

/-- commands.rs:70-72 `entries` -/
def Db.entries (d : Db) : List Entry := d.items.map Prod.snd

/-- commands.rs:81-83 `entry` -/
def Db.entry (d : Db) (path : Name) : Option Entry :=
  (d.items.find? (fun kv => samePath kv.1 path)).map Prod.snd

/-- The map invariant: one item per path, stored under (a spelling of) its input path. -/
structure Db.Ok (d : Db) : Prop where
  keys : ∀ kv ∈ d.items, pathComponents kv.1 = pathComponents kv.2.file
  distinct : (d.items.map (fun kv => pathComponents kv.1)).Nodup

theorem samePath_iff (p q : Name) : samePath p q = true ↔ pathComponents p = pathComponents q := by simp [samePath]

theorem insertItem_keys (items : List (Name × Entry)) (k : Name) (e : Entry) :
    (insertItem items k e).2.map (fun kv => pathComponents kv.1) =
      if pathComponents k ∈ items.map (fun kv => pathComponents kv.1) then items.map (fun kv => pathComponents kv.1)
      else items.map (fun kv => pathComponents kv.1) ++ [pathComponents k] := by
  induction items with
  | nil => simp [insertItem]
  | cons kv rest ih =>
    obtain ⟨k', e'⟩ := kv
    unfold insertItem
    by_cases h : samePath k' k = true
    · rw [if_pos h]
      rw [samePath_iff] at h
      simp [h]
    · rw [if_neg h]
      rw [samePath_iff] at h
      simp only [List.map_cons, ih, List.mem_cons]
      by_cases hm : pathComponents k ∈ rest.map (fun kv => pathComponents kv.1)
      · rw [if_pos hm, if_pos (Or.inr hm)]
      · rw [if_neg hm, if_neg (by rintro (h1 | h1); exacts [h h1.symm, hm h1])]
        rfl

theorem insertItem_mem (items : List (Name × Entry)) (k : Name) (e : Entry) :
    ∀ kv ∈ (insertItem items k e).2, kv ∈ items ∨ (kv.2 = e ∧ pathComponents kv.1 = pathComponents k) := by
  induction items with
  | nil => intro kv h; simp [insertItem] at h; subst h; simp
  | cons kv' rest ih =>
    obtain ⟨k', e'⟩ := kv'
    intro kv h
    unfold insertItem at h
    by_cases hs : samePath k' k = true
    · rw [if_pos hs] at h
      rw [samePath_iff] at hs
      rcases List.mem_cons.1 h with rfl | h
      · exact Or.inr ⟨rfl, hs⟩
      · exact Or.inl (by simp [h])
    · rw [if_neg hs] at h
      rcases List.mem_cons.1 h with rfl | h
      · exact Or.inl (by simp)
      · rcases ih kv h with h | h
        · exact Or.inl (by simp [h])
        · exact Or.inr h

theorem insertItem_ok (items : List (Name × Entry)) (e : Entry) (h : Db.Ok ⟨items⟩) :
    Db.Ok ⟨(insertItem items e.file e).2⟩ := by
  constructor
  · intro kv hkv
    rcases insertItem_mem items e.file e kv hkv with h1 | ⟨h1, h2⟩
    · exact h.keys kv h1
    · rw [h1]; exact h2
  · show ((insertItem items e.file e).2.map _).Nodup
    rw [insertItem_keys]
    split
    · exact h.distinct
    · rename_i hn
      rw [List.nodup_append]
      exact ⟨h.distinct, by simp, by intro a ha b hb; simp at hb; subst hb; rintro rfl; exact hn ha⟩

theorem insertItem_find (items : List (Name × Entry)) (e : Entry) (p : Name) :
    ((insertItem items e.file e).2.find? (fun kv => samePath kv.1 p)).map Prod.snd =
      if samePath e.file p then some e else (items.find? (fun kv => samePath kv.1 p)).map Prod.snd := by
  induction items with
  | nil =>
    simp only [insertItem, List.find?_cons, List.find?_nil]
    cases samePath e.file p <;> simp
  | cons kv rest ih =>
    obtain ⟨k', e'⟩ := kv
    unfold insertItem
    by_cases hs : samePath k' e.file = true
    · rw [if_pos hs]
      have hcong : samePath k' p = samePath e.file p := by
        rw [samePath_iff] at hs; simp [samePath, hs]
      simp only [List.find?_cons, hcong]
      cases samePath e.file p <;> simp
    · rw [if_neg hs]
      simp only [List.find?_cons]
      cases hk : samePath k' p with
      | true =>
        have : samePath e.file p = false := by
          cases he : samePath e.file p with
          | false => rfl
          | true => rw [samePath_iff] at hk he hs; exact absurd (hk.trans he.symm) hs
        simp [this]
      | false => simpa using ih

theorem insertItem_ret (items : List (Name × Entry)) (e : Entry) :
    (insertItem items e.file e).1 = (items.find? (fun kv => samePath kv.1 e.file)).map Prod.snd := by
  induction items with
  | nil => simp [insertItem]
  | cons kv rest ih =>
    obtain ⟨k', e'⟩ := kv
    unfold insertItem
    by_cases hs : samePath k' e.file = true
    · rw [if_pos hs]; simp [List.find?_cons, hs]
    · rw [if_neg hs]
      simp only [Bool.not_eq_true] at hs
      simp [List.find?_cons, hs, ih]

theorem fromEntries_aux (es : List Entry) : ∀ (items : List (Name × Entry)), Db.Ok ⟨items⟩ →
    Db.Ok ⟨es.foldl (fun items e => (insertItem items e.file e).2) items⟩ ∧
    ∀ p, ((es.foldl (fun items e => (insertItem items e.file e).2) items).find? (fun kv => samePath kv.1 p)).map Prod.snd =
      match es.reverse.find? (fun e => samePath e.file p) with
      | some e => some e
      | none => (items.find? (fun kv => samePath kv.1 p)).map Prod.snd := by
  induction es with
  | nil => intro items h; exact ⟨h, fun p => rfl⟩
  | cons e es ih =>
    intro items h
    obtain ⟨h1, h2⟩ := ih _ (insertItem_ok items e h)
    refine ⟨h1, fun p => ?_⟩
    rw [List.foldl_cons, h2 p, List.reverse_cons, List.find?_append]
    cases es.reverse.find? (fun e => samePath e.file p) with
    | some e' => simp
    | none =>
      simp only [Option.none_or, List.find?_cons, List.find?_nil]
      rw [insertItem_find]
      cases samePath e.file p <;> simp

/-- **C27, loading.** For every list of entries, `entry(path)` returns the last entry of the list whose input is that
path, and nothing iff there is none; entries have one element per distinct input path. -/
theorem c27_from_entries (es : List Entry) (p : Name) :
    (Db.fromEntries es).entry p = es.reverse.find? (fun e => samePath e.file p) ∧
    ((Db.fromEntries es).entry p = none ↔ ∀ e ∈ es, pathComponents e.file ≠ pathComponents p) ∧
    (∀ e, (Db.fromEntries es).entry p = some e → e ∈ es ∧ pathComponents e.file = pathComponents p) ∧
    ((Db.fromEntries es).entries.map (fun e => pathComponents e.file)).Nodup ∧
    (∀ c, c ∈ (Db.fromEntries es).entries.map (fun e => pathComponents e.file) ↔
      c ∈ es.map (fun e => pathComponents e.file)) := by
  obtain ⟨hok, hfind⟩ := fromEntries_aux es [] ⟨by simp, by simp⟩
  have hentry : ∀ p, (Db.fromEntries es).entry p = es.reverse.find? (fun e => samePath e.file p) := by
    intro p
    have := hfind p
    unfold Db.entry Db.fromEntries
    rw [this]
    cases es.reverse.find? (fun e => samePath e.file p) <;> rfl
  have hsome : ∀ p e, (Db.fromEntries es).entry p = some e → e ∈ es ∧ pathComponents e.file = pathComponents p := by
    intro p e h
    rw [hentry] at h
    have h1 := List.mem_of_find?_eq_some h
    have h2 := List.find?_some h
    rw [samePath_iff] at h2
    exact ⟨by simpa using h1, h2⟩
  have hkeys : (Db.fromEntries es).entries.map (fun e => pathComponents e.file) =
      (Db.fromEntries es).items.map (fun kv => pathComponents kv.1) := by
    unfold Db.entries
    rw [List.map_map]
    apply List.map_congr_left
    intro kv hkv
    exact (hok.keys kv hkv).symm
  refine ⟨hentry p, ?_, hsome p, ?_, ?_⟩
  · rw [hentry, List.find?_eq_none]
    simp [samePath_iff]
  · rw [hkeys]; exact hok.distinct
  · intro c
    rw [hkeys]
    have hc : ∀ q, pathComponents q ∈ (Db.fromEntries es).items.map (fun kv => pathComponents kv.1) ↔
        ∃ e, (Db.fromEntries es).entry q = some e := by
      intro q
      unfold Db.entry
      simp only [Option.map_eq_some_iff]
      constructor
      · intro h
        obtain ⟨kv, hkv, he⟩ := List.mem_map.1 h
        cases hf : (Db.fromEntries es).items.find? (fun kv => samePath kv.1 q) with
        | none =>
          rw [List.find?_eq_none] at hf
          have := hf kv hkv
          rw [samePath_iff] at this
          exact absurd he this
        | some a => exact ⟨a.2, a, rfl, rfl⟩
      · rintro ⟨e, kv, hf, -⟩
        have h2 := List.find?_some hf
        rw [samePath_iff] at h2
        exact List.mem_map.2 ⟨kv, List.mem_of_find?_eq_some hf, h2⟩
    constructor
    · intro h
      obtain ⟨kv, hkv, rfl⟩ := List.mem_map.1 h
      obtain ⟨e, he⟩ := (hc kv.1).1 h
      obtain ⟨h1, h2⟩ := hsome _ _ he
      exact List.mem_map.2 ⟨e, h1, h2⟩
    · intro h
      obtain ⟨e, he, rfl⟩ := List.mem_map.1 h
      rw [hc]
      cases hx : (Db.fromEntries es).entry e.file with
      | some e' => exact ⟨e', rfl⟩
      | none =>
        rw [hentry, List.find?_eq_none] at hx
        have := hx e (by simpa using he)
        rw [samePath_iff] at this
        exact absurd rfl this

/-- **C27, adding.** On every database, `push` of an entry fails iff the input path is already present, afterwards that
path is bound to the new entry and all other lookups are unchanged; `clear` forgets everything. -/
theorem c27_push_clear (d : Db) (e : Entry) (p : Name) :
    ((d.push e).1 = true ↔ d.entry e.file ≠ none) ∧
    (d.push e).2.entry p = (if pathComponents e.file = pathComponents p then some e else d.entry p) ∧
    d.clear.entry p = none ∧ d.clear.entries = [] := by
  refine ⟨?_, ?_, rfl, rfl⟩
  · unfold Db.push Db.entry
    simp only [insertItem_ret]
    rw [Option.isSome_iff_ne_none]
  · unfold Db.push Db.entry
    simp only [insertItem_find]
    by_cases h : samePath e.file p = true
    · rw [if_pos h, if_pos ((samePath_iff _ _).1 h)]
    · rw [if_neg h, if_neg (fun hc => h ((samePath_iff _ _).2 hc))]

/-- Non-vacuity: duplicates, also under another spelling of the path; the last one wins. -/
example :
    let a : Entry := ⟨"/b".toList, [], "/s/a.cpp".toList, none⟩
    let a' : Entry := ⟨"/c".toList, [], "/s/./a.cpp".toList, none⟩
    let b : Entry := ⟨"/b".toList, [], "/s/b.cpp".toList, none⟩
    (Db.fromEntries [a, b, a']).entries = [a', b] ∧ (Db.fromEntries [a, b, a']).entry "/s//a.cpp".toList = some a' ∧
      (Db.fromEntries [a, b]).entry "/s".toList = none ∧ ((Db.fromEntries [a, b]).push a').1 = true := by
  decide

/-! ## C28: freshness -/

/-- `io::ErrorKind`, as far as the code looks at it -/
inductive IoErr where
  | notFound
  | other (code : Nat)
  deriving DecidableEq

/-- `path.metadata().and_then(|m| m.modified())` for every path, and the current time. -/
structure Fs where
  mtime : Name → Except IoErr Nat
  now : Nat

/-- commands.rs:264-278 -/
inductive Freshness where
  | nonexistent
  | outdated
  | maybeOutdated (age : Option Nat)
  deriving DecidableEq

/-- commands.rs:24-26 `location()` -/
def dbLocation : Name := "compile_commands.json".toList

/-- Specification: the file of the compilation database, relative to the working directory. -/
def databaseFile : Name := "compile_commands.json".toList

theorem databaseFile_eq : databaseFile = dbLocation := rfl

/-- commands.rs:110-114: the loop over the inputs -/
def checkInputs (fs : Fs) (product : Nat) : List Name → Except IoErr Bool
  | [] => .ok false
  | i :: is => match fs.mtime i with
    | .error e => .error e
    | .ok t => if product < t then .ok true else checkInputs fs product is

/-- commands.rs:91-122 `product_freshness` -/
def productFreshness (fs : Fs) (inputs : List Name) (output : Name) : Except IoErr Freshness :=
  match fs.mtime output with
  | .error .notFound => .ok .nonexistent
  | .error e => .error e
  | .ok product =>
    match fs.mtime dbLocation with
    | .error e => .error e
    | .ok dbTime =>
      if product < dbTime then .ok .outdated
      else match checkInputs fs product inputs with
        | .error e => .error e
        | .ok true => .ok .outdated
        | .ok false => .ok (.maybeOutdated (if product ≤ fs.now then some (fs.now - product) else none))

/-- commands.rs:86-88 `profile_freshness` -/
def Db.profileFreshness (d : Db) (fs : Fs) (path : Name) : Except IoErr Freshness :=
  productFreshness fs (d.entries.map Entry.file) path

/-- commands.rs:239-241 `derived_freshness` -/
def Entry.derivedFreshness (e : Entry) (fs : Fs) (path : Name) : Except IoErr Freshness :=
  productFreshness fs [e.file] path

/-- commands.rs:282-288 `exists` -/
def Freshness.exists? : Freshness → Bool
  | .nonexistent => false
  | .outdated => true
  | .maybeOutdated _ => true

/-- The file at `p` exists and was modified after time `t`. -/
def NewerThan (fs : Fs) (t : Nat) (p : Name) : Prop := ∃ t', fs.mtime p = .ok t' ∧ t < t'

theorem checkInputs_true (fs : Fs) (product : Nat) (is : List Name) :
    checkInputs fs product is = .ok true → ∃ i ∈ is, NewerThan fs product i := by
  induction is with
  | nil => intro h; simp [checkInputs] at h
  | cons i is ih =>
    intro h
    unfold checkInputs at h
    cases hm : fs.mtime i with
    | error e => rw [hm] at h; cases h
    | ok t =>
      rw [hm] at h
      simp only at h
      by_cases hlt : product < t
      · exact ⟨i, by simp, t, hm, hlt⟩
      · rw [if_neg hlt] at h
        obtain ⟨j, hj, hn⟩ := ih h
        exact ⟨j, by simp [hj], hn⟩

theorem checkInputs_false (fs : Fs) (product : Nat) (is : List Name) :
    checkInputs fs product is = .ok false ↔ ∀ i ∈ is, ∃ t, fs.mtime i = .ok t ∧ t ≤ product := by
  induction is with
  | nil => simp [checkInputs]
  | cons i is ih =>
    unfold checkInputs
    cases hm : fs.mtime i with
    | error e =>
      simp only [reduceCtorEq, List.mem_cons, forall_eq_or_imp, hm, false_and, exists_false]
    | ok t =>
      simp only [List.mem_cons, forall_eq_or_imp, hm, Except.ok.injEq, exists_eq_left']
      by_cases hlt : product < t
      · rw [if_pos hlt]
        constructor
        · intro h; cases h
        · rintro ⟨h, -⟩; omega
      · rw [if_neg hlt, ih]
        exact ⟨fun h => ⟨by omega, h⟩, fun h => h.2⟩

theorem checkInputs_error (fs : Fs) (product : Nat) (is : List Name) (e : IoErr) :
    checkInputs fs product is = .error e → ∃ i ∈ is, fs.mtime i = .error e := by
  induction is with
  | nil => intro h; simp [checkInputs] at h
  | cons i is ih =>
    intro h
    unfold checkInputs at h
    cases hm : fs.mtime i with
    | error e' => rw [hm] at h; cases h; exact ⟨i, by simp, hm⟩
    | ok t =>
      rw [hm] at h
      simp only at h
      by_cases hlt : product < t
      · rw [if_pos hlt] at h; cases h
      · rw [if_neg hlt] at h
        obtain ⟨j, hj, hn⟩ := ih h
        exact ⟨j, by simp [hj], hn⟩

/-- **C28.** For every file system state and every list of inputs in every order:
1. `Nonexistent` iff the product file is not found (not on other errors);
2. `Outdated` only if the product exists and the database or some input is newer; conversely if the database is newer, or
   an input is newer and no file is unreadable, the verdict is `Outdated`;
3. `MaybeOutdated` iff the product, the database and all inputs can be read and none is newer; the age is the time since
   the product was written, unknown iff that is in the future;
4. an error is always an error of one of the files, and if all can be read there is a verdict. -/
theorem c28_freshness (fs : Fs) (inputs : List Name) (output : Name) :
    (productFreshness fs inputs output = .ok .nonexistent ↔ fs.mtime output = .error .notFound) ∧
    (productFreshness fs inputs output = .ok .outdated →
      ∃ t, fs.mtime output = .ok t ∧ (NewerThan fs t databaseFile ∨ ∃ i ∈ inputs, NewerThan fs t i)) ∧
    (∀ t, fs.mtime output = .ok t → NewerThan fs t databaseFile →
      productFreshness fs inputs output = .ok .outdated) ∧
    (∀ t tdb, fs.mtime output = .ok t → fs.mtime databaseFile = .ok tdb → (∀ i ∈ inputs, ∃ ti, fs.mtime i = .ok ti) →
      (∃ i ∈ inputs, NewerThan fs t i) → productFreshness fs inputs output = .ok .outdated) ∧
    (∀ age, productFreshness fs inputs output = .ok (.maybeOutdated age) ↔
      ∃ t, fs.mtime output = .ok t ∧ (∀ p ∈ databaseFile :: inputs, ∃ t', fs.mtime p = .ok t' ∧ t' ≤ t) ∧
        age = if t ≤ fs.now then some (fs.now - t) else none) ∧
    (∀ e, productFreshness fs inputs output = .error e →
      (fs.mtime output = .error e ∧ e ≠ .notFound) ∨ ∃ p ∈ databaseFile :: inputs, fs.mtime p = .error e) := by
  simp only [databaseFile_eq]
  unfold productFreshness
  cases ho : fs.mtime output with
  | error e =>
    cases e with
    | notFound => simp
    | other c => simp
  | ok t =>
    cases hd : fs.mtime dbLocation with
    | error e => simp [NewerThan, hd]
    | ok tdb =>
      simp only [reduceCtorEq, iff_false, Except.ok.injEq, false_and, false_or, exists_eq_left', forall_eq',
        List.mem_cons, forall_eq_or_imp, hd]
      by_cases hlt : t < tdb
      · rw [if_pos hlt]
        refine ⟨by simp, fun _ => Or.inl ⟨tdb, hd, hlt⟩, fun _ => rfl, fun _ _ _ _ _ _ => rfl, ?_, by simp⟩
        intro age
        simp only [reduceCtorEq, false_iff, Except.ok.injEq]
        rintro ⟨⟨h1, -⟩, -⟩
        omega
      · rw [if_neg hlt]
        have hndb : ¬ NewerThan fs t dbLocation := by
          rintro ⟨t', h1, h2⟩; rw [hd] at h1; cases h1; exact hlt h2
        cases hc : checkInputs fs t inputs with
        | error e =>
          obtain ⟨i, hi, hie⟩ := checkInputs_error fs t inputs e hc
          refine ⟨by simp, by simp, ?_, ?_, ?_, ?_⟩
          · intro h2; exact absurd h2 hndb
          · intro t' tdb' h1 h2 h3
            obtain ⟨ti, hti⟩ := h3 i hi
            rw [hie] at hti; cases hti
          · intro age
            simp only [reduceCtorEq, false_iff]
            rintro ⟨⟨-, h2⟩, -⟩
            obtain ⟨ti, hti, -⟩ := h2 i hi
            rw [hie] at hti; cases hti
          · intro e' he'
            cases he'
            exact ⟨i, Or.inr hi, hie⟩
        | ok b =>
          cases b with
          | true =>
            obtain ⟨i, hi, hin⟩ := checkInputs_true fs t inputs hc
            refine ⟨by simp, fun _ => Or.inr ⟨i, hi, hin⟩, fun _ => rfl, fun _ _ _ _ _ _ => rfl, ?_, by simp⟩
            intro age
            simp only [Except.ok.injEq, reduceCtorEq, false_iff]
            rintro ⟨⟨-, h2⟩, -⟩
            obtain ⟨t1, ht1, hle⟩ := h2 i hi
            obtain ⟨t2, ht2, hlt2⟩ := hin
            rw [ht1] at ht2; cases ht2
            omega
          | false =>
            have hall := (checkInputs_false fs t inputs).1 hc
            refine ⟨by simp, by simp, ?_, ?_, ?_, by simp⟩
            · intro h2; exact absurd h2 hndb
            · intro t' tdb' h1 h2 h3 ⟨i, hi, t2, ht2, hlt2⟩
              subst h1
              obtain ⟨t1, ht1, hle⟩ := hall i hi
              rw [ht1] at ht2; cases ht2
              omega
            · intro age
              simp only [Except.ok.injEq, Freshness.maybeOutdated.injEq]
              constructor
              · rintro rfl
                exact ⟨⟨by omega, hall⟩, rfl⟩
              · rintro ⟨-, rfl⟩; rfl

/-- **C28, order.** When every file can be read, the verdict does not depend on the order of the inputs (the database
iterates over a hash map). -/
theorem c28_order_irrelevant (fs : Fs) (inputs inputs' : List Name) (output : Name) (hperm : ∀ i, i ∈ inputs ↔ i ∈ inputs')
    (hread : ∀ i ∈ inputs, ∃ t, fs.mtime i = .ok t) :
    productFreshness fs inputs output = productFreshness fs inputs' output := by
  have key : ∀ t, checkInputs fs t inputs = checkInputs fs t inputs' := by
    intro t
    have aux : ∀ l : List Name, (∀ i ∈ l, ∃ t, fs.mtime i = .ok t) →
        checkInputs fs t l = .ok false ∨ checkInputs fs t l = .ok true := by
      intro l hl
      cases h : checkInputs fs t l with
      | error e =>
        obtain ⟨i, hi, he⟩ := checkInputs_error fs t l e h
        obtain ⟨t', ht'⟩ := hl i hi
        rw [he] at ht'; cases ht'
      | ok b => cases b <;> simp
    have hread' : ∀ i ∈ inputs', ∃ t, fs.mtime i = .ok t := fun i hi => hread i ((hperm i).2 hi)
    have hiff : checkInputs fs t inputs = .ok false ↔ checkInputs fs t inputs' = .ok false := by
      rw [checkInputs_false, checkInputs_false]
      exact ⟨fun h i hi => h i ((hperm i).2 hi), fun h i hi => h i ((hperm i).1 hi)⟩
    rcases aux inputs hread with h1 | h1
    · rw [h1, hiff.1 h1]
    · rcases aux inputs' hread' with h2 | h2
      · rw [hiff.2 h2] at h1; cases h1
      · rw [h1, h2]
  unfold productFreshness
  simp only [key]

theorem fromEntries_mem (es : List Entry) : ∀ e ∈ (Db.fromEntries es).entries, e ∈ es := by
  have aux : ∀ (es : List Entry) (items : List (Name × Entry)) (kv : Name × Entry),
      kv ∈ es.foldl (fun items e => (insertItem items e.file e).2) items → kv ∈ items ∨ kv.2 ∈ es := by
    intro es
    induction es with
    | nil => intro items kv h; exact Or.inl h
    | cons a as ih =>
      intro items kv h
      rw [List.foldl_cons] at h
      rcases ih _ _ h with h | h
      · rcases insertItem_mem items a.file a kv h with h | ⟨h, -⟩
        · exact Or.inl h
        · exact Or.inr (by rw [h]; simp)
      · exact Or.inr (List.mem_cons_of_mem _ h)
  intro e he
  unfold Db.entries Db.fromEntries at he
  obtain ⟨kv, hkv, rfl⟩ := List.mem_map.1 he
  rcases aux es [] kv hkv with h | h
  · simp at h
  · exact h

/-- **C28, whole build.** The freshness of the build-wide profile of a database loaded from entries `es` depends on the
file, the database and the source files of exactly those entries. -/
theorem c28_profile (es : List Entry) (fs : Fs) (path : Name) (hlit : ∀ e ∈ es, ∀ e' ∈ es,
      pathComponents e.file = pathComponents e'.file → fs.mtime e.file = fs.mtime e'.file) :
    ((Db.fromEntries es).profileFreshness fs path = .ok .nonexistent ↔ fs.mtime path = .error .notFound) ∧
    (∀ age, (Db.fromEntries es).profileFreshness fs path = .ok (.maybeOutdated age) ↔
      ∃ t, fs.mtime path = .ok t ∧ (∃ t', fs.mtime databaseFile = .ok t' ∧ t' ≤ t) ∧
        (∀ e ∈ es, ∃ t', fs.mtime e.file = .ok t' ∧ t' ≤ t) ∧
        age = if t ≤ fs.now then some (fs.now - t) else none) ∧
    (∀ t, fs.mtime path = .ok t → (∃ t', fs.mtime databaseFile = .ok t') → (∀ e ∈ es, ∃ t', fs.mtime e.file = .ok t') →
      ((Db.fromEntries es).profileFreshness fs path = .ok .outdated ↔
        NewerThan fs t databaseFile ∨ ∃ e ∈ es, NewerThan fs t e.file)) := by
  simp only [databaseFile_eq]
  have hfw : ∀ e ∈ (Db.fromEntries es).entries, ∃ e' ∈ es, fs.mtime e'.file = fs.mtime e.file := by
    intro e he
    exact ⟨e, fromEntries_mem es e he, rfl⟩
  have hbw : ∀ e' ∈ es, ∃ e ∈ (Db.fromEntries es).entries, fs.mtime e'.file = fs.mtime e.file := by
    intro e' he'
    have hc := ((c27_from_entries es e'.file).2.2.2.2 (pathComponents e'.file)).2 (List.mem_map.2 ⟨e', he', rfl⟩)
    obtain ⟨e, he, hpe⟩ := List.mem_map.1 hc
    exact ⟨e, he, hlit e' he' e (fromEntries_mem es e he) hpe.symm⟩
  obtain ⟨c1, c2, c3, c4, c5, -⟩ := c28_freshness fs ((Db.fromEntries es).entries.map Entry.file) path
  simp only [databaseFile_eq] at c1 c2 c3 c4 c5
  refine ⟨c1, ?_, ?_⟩
  · intro age
    unfold Db.profileFreshness
    rw [c5]
    constructor
    · rintro ⟨t, h1, h2, h3⟩
      refine ⟨t, h1, h2 _ (by simp), ?_, h3⟩
      intro e' he'
      obtain ⟨e, he, hm⟩ := hbw e' he'
      rw [hm]
      exact h2 _ (List.mem_cons_of_mem _ (List.mem_map.2 ⟨e, he, rfl⟩))
    · rintro ⟨t, h1, h2, h3, h4⟩
      refine ⟨t, h1, ?_, h4⟩
      intro p hp
      rcases List.mem_cons.1 hp with rfl | hp
      · exact h2
      · obtain ⟨e, he, rfl⟩ := List.mem_map.1 hp
        obtain ⟨e', he', hm⟩ := hfw e he
        rw [← hm]; exact h3 e' he'
  · intro t h1 h2 h3
    constructor
    · intro h
      obtain ⟨t0, e1, e2⟩ := c2 h
      rw [h1] at e1; cases e1
      rcases e2 with e2 | ⟨i, hi, e2⟩
      · exact Or.inl e2
      · obtain ⟨e, he, rfl⟩ := List.mem_map.1 hi
        obtain ⟨e', he', hm⟩ := hfw e he
        exact Or.inr ⟨e', he', by unfold NewerThan at e2 ⊢; rw [hm]; exact e2⟩
    · rintro (h | ⟨e', he', h⟩)
      · exact c3 t h1 h
      · obtain ⟨tdb, h2⟩ := h2
        refine c4 t tdb h1 h2 ?_ ?_
        · intro i hi
          obtain ⟨e, he, rfl⟩ := List.mem_map.1 hi
          obtain ⟨e', he', hm⟩ := hfw e he
          rw [← hm]; exact h3 e' he'
        · obtain ⟨e, he, hm⟩ := hbw e' he'
          exact ⟨_, List.mem_map.2 ⟨e, he, rfl⟩, by unfold NewerThan at h ⊢; rw [← hm]; exact h⟩

/-- Non-vacuity: two entries whose paths differ only in spelling, on a file system that does not see the difference. -/
example :
    let e1 : Entry := ⟨[], [], "/a/b.cpp".toList, none⟩
    let e2 : Entry := ⟨[], [], "/a/./b.cpp".toList, none⟩
    let fs : Fs := ⟨fun p => if samePath p e1.file then .ok 4 else if p = dbLocation then .ok 3
      else if p = "out".toList then .ok 5 else .error .notFound, 7⟩
    (∀ e ∈ [e1, e2], ∀ e' ∈ [e1, e2], pathComponents e.file = pathComponents e'.file → fs.mtime e.file = fs.mtime e'.file) ∧
    (Db.fromEntries [e1, e2]).profileFreshness fs "out".toList = .ok (.maybeOutdated (some 2)) := by
  refine ⟨?_, by decide +kernel⟩
  intro e he e' he' h
  have hs : ∀ p : Name, samePath p "/a/b.cpp".toList = decide (pathComponents p = pathComponents "/a/b.cpp".toList) :=
    fun p => rfl
  simp only [List.mem_cons, List.not_mem_nil, or_false] at he he'
  rcases he with rfl | rfl <;> rcases he' with rfl | rfl <;> decide +kernel

/-- **C28, one unit.** The freshness of a product of one entry depends on that entry's source file, and a product exists
iff it is not reported as nonexistent. -/
theorem c28_derived (e : Entry) (fs : Fs) (path : Name) :
    (e.derivedFreshness fs path = .ok .nonexistent ↔ fs.mtime path = .error .notFound) ∧
    (∀ age, e.derivedFreshness fs path = .ok (.maybeOutdated age) ↔
      ∃ t td ts, fs.mtime path = .ok t ∧ fs.mtime databaseFile = .ok td ∧ fs.mtime e.file = .ok ts ∧ td ≤ t ∧ ts ≤ t ∧
        age = if t ≤ fs.now then some (fs.now - t) else none) ∧
    (∀ t td ts, fs.mtime path = .ok t → fs.mtime databaseFile = .ok td → fs.mtime e.file = .ok ts →
      (e.derivedFreshness fs path = .ok .outdated ↔ t < td ∨ t < ts)) ∧
    (∀ f, e.derivedFreshness fs path = .ok f → (f.exists? = true ↔ ∃ t, fs.mtime path = .ok t)) := by
  simp only [databaseFile_eq]
  unfold Entry.derivedFreshness
  obtain ⟨c1, c2, c3, c4, c5, -⟩ := c28_freshness fs [e.file] path
  simp only [databaseFile_eq] at c1 c2 c3 c4 c5
  refine ⟨c1, ?_, ?_, ?_⟩
  · intro age
    rw [c5]
    constructor
    · rintro ⟨t, h1, h2, h3⟩
      obtain ⟨td, a1, a2⟩ := h2 dbLocation (by simp)
      obtain ⟨ts, b1, b2⟩ := h2 e.file (by simp)
      exact ⟨t, td, ts, h1, a1, b1, a2, b2, h3⟩
    · rintro ⟨t, td, ts, h1, a1, b1, a2, b2, h3⟩
      refine ⟨t, h1, ?_, h3⟩
      intro p hp
      simp only [List.mem_cons, List.not_mem_nil, or_false] at hp
      rcases hp with rfl | rfl
      · exact ⟨td, a1, a2⟩
      · exact ⟨ts, b1, b2⟩
  · intro t td ts h1 a1 b1
    constructor
    · intro h
      obtain ⟨t0, e1, e2⟩ := c2 h
      rw [h1] at e1; cases e1
      rcases e2 with ⟨x, x1, x2⟩ | ⟨i, hi, x, x1, x2⟩
      · rw [a1] at x1; cases x1; exact Or.inl x2
      · rw [List.mem_singleton] at hi; subst hi
        rw [b1] at x1; cases x1; exact Or.inr x2
    · rintro (h | h)
      · exact c3 t h1 ⟨td, a1, h⟩
      · exact c4 t td h1 a1 (by intro i hi; rw [List.mem_singleton] at hi; subst hi; exact ⟨ts, b1⟩)
          ⟨e.file, by simp, ts, b1, h⟩
  · intro f hf
    cases f with
    | nonexistent =>
      simp only [Freshness.exists?, Bool.false_eq_true, false_iff]
      rintro ⟨t, ht⟩
      rw [c1.1 hf] at ht; cases ht
    | outdated =>
      simp only [Freshness.exists?, true_iff]
      obtain ⟨t, h1, -⟩ := c2 hf
      exact ⟨t, h1⟩
    | maybeOutdated age =>
      simp only [Freshness.exists?, true_iff]
      obtain ⟨t, h1, -⟩ := (c5 age).1 hf
      exact ⟨t, h1⟩

/-- Non-vacuity: a product written at time 5, database at 3, inputs at 4 and 9. -/
example :
    let fs : Fs := ⟨fun p => if p = "out".toList then .ok 5 else if p = dbLocation then .ok 3
      else if p = "a".toList then .ok 4 else if p = "b".toList then .ok 9 else .error .notFound, 7⟩
    productFreshness fs ["a".toList] "out".toList = .ok (.maybeOutdated (some 2)) ∧
    productFreshness fs ["a".toList, "b".toList] "out".toList = .ok .outdated ∧
    productFreshness fs ["a".toList, "c".toList] "out".toList = .error .notFound ∧
    productFreshness fs [] "c".toList = .ok .nonexistent := ⟨rfl, rfl, rfl, rfl⟩

/-! ## C29: output file -/

/-- `Path::push` on component lists: an absolute path replaces, `.` components are skipped in the middle of a path. -/
def joinComps (a b : List Comp) : List Comp :=
  if b.head? = some .rootDir then b
  else if a = [] then b
  else a ++ b.filter (fun c => c ≠ .curDir)

/-- `Path::file_name`: the last component, if it is a normal name -/
def fileName (cs : List Comp) : Option Name :=
  match cs.getLast? with
  | some (.normal n) => some n
  | _ => none

/-- `Path::parent` on component lists: `None` for the empty path and the root -/
def parentComps (cs : List Comp) : Option (List Comp) :=
  match cs.getLast? with
  | none => none
  | some .rootDir => none
  | some _ => some cs.dropLast

/-- commands.rs:210-236 `output()`; `canon` is `Path::canonicalize` (`none` = error). Result as path components. -/
def Entry.outputPath (e : Entry) (canon : List Comp → Option (List Comp)) : Option (List Comp) :=
  match e.output with
  | some out => some (pathComponents out)
  | none =>
    -- `args().skip_while(|arg| arg != "-o").nth(1)?`
    match ((e.words.drop 1).dropWhile (fun a => decide (a ≠ "-o".toList)))[1]? with
    | none => none
    | some rel =>
      match fileName (pathComponents rel) with
      | none => none
      | some name =>
        let dir := pathComponents e.directory
        let result := match parentComps (pathComponents rel) with
          | some p => joinComps dir p
          | none => dir
        let result := (canon result).getD result
        some (joinComps result [.normal name])

/-- The argument after the first `-o`, the program name excluded. -/
inductive OutputArg : List Name → Name → Prop where
  | mk (prog : Name) (pre : List Name) (rel : Name) (rest : List Name) : "-o".toList ∉ pre →
      OutputArg (prog :: pre ++ "-o".toList :: rel :: rest) rel

theorem dropWhile_first (pre rest : List Name) (h : "-o".toList ∉ pre) :
    (pre ++ "-o".toList :: rest).dropWhile (fun a => decide (a ≠ "-o".toList)) = "-o".toList :: rest := by
  induction pre with
  | nil => simp [List.dropWhile_cons]
  | cons a as ih =>
    simp only [List.mem_cons, not_or] at h
    rw [List.cons_append, List.dropWhile_cons_of_pos]
    · exact ih h.2
    · simp only [decide_eq_true_eq]; exact fun hc => h.1 hc.symm

theorem outputArg_iff (words : List Name) (rel : Name) :
    ((words.drop 1).dropWhile (fun a => decide (a ≠ "-o".toList)))[1]? = some rel ↔ OutputArg words rel := by
  constructor
  · intro h
    have hsplit := List.takeWhile_append_dropWhile (p := fun a => decide (a ≠ "-o".toList)) (l := words.drop 1)
    cases hd : (words.drop 1).dropWhile (fun a => decide (a ≠ "-o".toList)) with
    | nil => rw [hd] at h; simp at h
    | cons x xs =>
      rw [hd] at h
      cases xs with
      | nil => simp at h
      | cons y ys =>
        simp at h
        subst h
        have hx : x = "-o".toList := by
          have := List.head?_dropWhile_not (fun a => decide (a ≠ "-o".toList)) (words.drop 1)
          rw [hd] at this
          simpa using this
        subst hx
        cases words with
        | nil => simp at hd
        | cons w ws =>
          simp only [List.drop_succ_cons, List.drop_zero] at hsplit hd
          rw [hd] at hsplit
          have : w :: ws = w :: ws.takeWhile (fun a => decide (a ≠ "-o".toList)) ++ "-o".toList :: y :: ys := by
            rw [List.cons_append, hsplit]
          rw [this]
          refine OutputArg.mk w _ y ys ?_
          intro hm
          have := List.all_takeWhile (p := fun a => decide (a ≠ "-o".toList)) (l := ws)
          rw [List.all_eq_true] at this
          have := this _ hm
          simp at this
  · rintro ⟨prog, pre, _, rest, hpre⟩
    rw [List.cons_append, List.drop_succ_cons, List.drop_zero, dropWhile_first pre _ hpre]
    rfl

/-- **C29.** The explicit output wins; otherwise, if the argument after the first `-o` has a file name, the result is that
name in the directory of that argument relative to the entry's directory (canonicalized if possible); otherwise there is
no output. -/
theorem c29_output (e : Entry) (canon : List Comp → Option (List Comp)) :
    (∀ out, e.output = some out → e.outputPath canon = some (pathComponents out)) ∧
    (e.output = none → (¬ ∃ rel, OutputArg e.words rel) → e.outputPath canon = none) ∧
    (∀ rel, e.output = none → OutputArg e.words rel → fileName (pathComponents rel) = none →
      e.outputPath canon = none) ∧
    (∀ rel pre name, e.output = none → OutputArg e.words rel → pathComponents rel = pre ++ [.normal name] →
      e.outputPath canon = some (joinComps ((canon (joinComps (pathComponents e.directory) pre)).getD
        (joinComps (pathComponents e.directory) pre)) [.normal name])) := by
  refine ⟨?_, ?_, ?_, ?_⟩
  · intro out h; simp [Entry.outputPath, h]
  · intro h hno
    unfold Entry.outputPath
    rw [h]
    cases hx : ((e.words.drop 1).dropWhile (fun a => decide (a ≠ "-o".toList)))[1]? with
    | none => rfl
    | some rel => exact absurd ⟨rel, (outputArg_iff _ _).1 hx⟩ hno
  · intro rel h ho hf
    unfold Entry.outputPath
    rw [h]
    simp only [(outputArg_iff e.words rel).2 ho, hf]
  · intro rel pre name h ho hc
    unfold Entry.outputPath
    rw [h]
    simp only [(outputArg_iff e.words rel).2 ho, hc, fileName, parentComps, List.getLast?_concat, List.dropLast_concat]

theorem head_rootDir (p : Name) : (pathComponents p).head? = some .rootDir ∨ Comp.rootDir ∉ pathComponents p := by
  have h : ∀ n c, Verif.Intern.compOfPart n = some c → c ≠ .rootDir := by
    intro n c hc
    unfold Verif.Intern.compOfPart at hc
    split at hc
    · cases hc
    · split at hc
      · cases hc
      · split at hc <;> (cases hc; simp)
  unfold pathComponents
  split
  · left; rfl
  · right
    intro hm
    rcases List.mem_append.1 hm with hm | hm
    · split at hm <;> simp at hm
    · rw [List.mem_filterMap] at hm
      obtain ⟨n, -, hn⟩ := hm
      exact h n _ hn rfl

/-- **C29, in plain words.** When the directory is not canonicalized, the result is simply the `-o` argument joined to the
entry's (absolute) directory. -/
theorem c29_is_join (e : Entry) (rel : Name) (he : e.output = none) (hrel : OutputArg e.words rel)
    (hname : fileName (pathComponents rel) ≠ none) (hdir : pathComponents e.directory ≠ []) :
    e.outputPath (fun _ => none) = some (joinComps (pathComponents e.directory) (pathComponents rel)) := by
  obtain ⟨pre, name, hpre⟩ : ∃ pre name, pathComponents rel = pre ++ [.normal name] := by
    cases hl : (pathComponents rel).getLast? with
    | none => simp [fileName, hl] at hname
    | some c =>
      cases c with
      | normal n =>
        refine ⟨(pathComponents rel).dropLast, n, ?_⟩
        rw [List.getLast?_eq_some_iff] at hl
        obtain ⟨ys, hys⟩ := hl
        rw [hys]; simp
      | _ => simp [fileName, hl] at hname
  rw [(c29_output e _).2.2.2 rel pre name he hrel hpre]
  simp only [Option.getD_none, Option.some.injEq]
  rw [hpre]
  have hroot := head_rootDir rel
  rw [hpre] at hroot
  have hsingle : ∀ a : List Comp, a ≠ [] → joinComps a [.normal name] = a ++ [.normal name] := by
    intro a ha; simp [joinComps, ha]
  cases pre with
  | nil =>
    rw [List.nil_append]
    have : joinComps (pathComponents e.directory) [] = pathComponents e.directory := by simp [joinComps, hdir]
    rw [this]
  | cons c cs =>
    by_cases hc : c = .rootDir
    · subst hc
      have h1 : joinComps (pathComponents e.directory) (Comp.rootDir :: cs) = Comp.rootDir :: cs := by simp [joinComps]
      rw [h1, hsingle _ (by simp)]
      simp [joinComps]
    · have h1 : joinComps (pathComponents e.directory) (c :: cs) =
          pathComponents e.directory ++ (c :: cs).filter (fun c => c ≠ .curDir) := by
        unfold joinComps
        rw [if_neg (by simp [hc]), if_neg hdir]
      rw [h1, hsingle _ (by simp [hdir])]
      unfold joinComps
      rw [if_neg (by simp [hc]), if_neg hdir, List.filter_append, List.append_assoc]
      simp

/-- Non-vacuity. -/
example :
    let e : Entry := ⟨"/build".toList, ["cc".toList, "-c".toList, "-o".toList, "obj/a.o".toList, "a.cpp".toList],
      "a.cpp".toList, none⟩
    OutputArg e.words "obj/a.o".toList ∧
    e.outputPath (fun _ => none) = some [.rootDir, .normal "build".toList, .normal "obj".toList, .normal "a.o".toList] := by
  refine ⟨OutputArg.mk "cc".toList ["-c".toList] _ _ (by decide), by decide⟩

end Verif.Build
