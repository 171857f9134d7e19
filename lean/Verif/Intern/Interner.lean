/-
Model of `asylum::Interner` (asylum/src/lib.rs) and property C14.
-/
import Mathlib.Data.List.Dedup
import Mathlib.Data.Finset.Card
import Mathlib.Data.Finset.Dedup
import Mathlib.Data.List.Basic

set_option autoImplicit false
set_option linter.unusedSectionVars false
set_option linter.unusedSimpArgs false

namespace Verif.Intern

/-- The ways the interners can panic. -/
inductive Panic where
  /-- `expect("Key space exhausted, ...")`  asylum/src/lib.rs:124-125, sequence.rs:154, sequence.rs:267 -/
  | keySpace
  /-- slice / vector index out of bounds, e.g. `self.items[key.into_usize()]` -/
  | outOfBounds
  deriving DecidableEq, Repr

/-- asylum/src/lib.rs:84-95 `Interner { items, random_state, keys }`.
Keys are represented by the `usize` they convert to (`lasso::Key::into_usize`);
the random state only affects the probing order of the hash table and is dropped.
The `RawTable` is the list of the keys it holds. -/
structure Interner (α : Type) where
  items : List α
  keys : List Nat
  deriving Repr

variable {α : Type} [DecidableEq α]

/-- asylum/src/lib.rs:99-105 `Interner::new` -/
def Interner.new : Interner α := ⟨[], []⟩

/-- asylum/src/lib.rs:119-123: `self.keys.get(hash, |key| self.items[key.into_usize()] == item)`.
The table only probes keys with the right hash; the model is more demanding, it panics as soon as *any* stored
key is out of bounds. -/
def Interner.lookup (s : Interner α) (x : α) : Except Panic (Option Nat) :=
  if s.keys.all (fun k => decide (k < s.items.length)) then
    .ok (s.keys.find? (fun k => decide (s.items[k]? = some x)))
  else .error .outOfBounds

/-- asylum/src/lib.rs:114-134 `Interner::intern`. `cap` is the number of values of the key type:
`K::try_from_usize(n)` succeeds iff `n < cap` (lasso's `Spur` types, 2^bits - 1 values). -/
def Interner.intern (cap : Nat) (s : Interner α) (x : α) : Except Panic (Nat × Interner α) :=
  match s.lookup x with
  | .error e => .error e
  | .ok (some k) => .ok (k, s)
  | .ok none =>
    if s.items.length < cap then
      .ok (s.items.length, ⟨s.items ++ [x], s.keys ++ [s.items.length]⟩)
    else .error .keySpace

/-- asylum/src/lib.rs:137-139, 166-168 `Interner::get` (`none` = index panic) -/
def Interner.get (s : Interner α) (k : Nat) : Option α := s.items[k]?

/-- asylum/src/lib.rs:147-149 `Interner::len` -/
def Interner.len (s : Interner α) : Nat := s.items.length

/-- asylum/src/lib.rs:142-144 `Interner::is_empty` -/
def Interner.isEmpty (s : Interner α) : Bool := s.items.isEmpty

/-- asylum/src/lib.rs:63 `Interned(items)` -/
structure Interned (α : Type) where
  items : List α

/-- asylum/src/lib.rs:152-154 `Interner::finalize` -/
def Interner.finalize (s : Interner α) : Interned α := ⟨s.items⟩

/-- asylum/src/lib.rs:67-69, 75-77 `Interned::get` -/
def Interned.get (s : Interned α) (k : Nat) : Option α := s.items[k]?

/-- A history of `intern` calls (a caller of the API), stopping at the first panic; returns the keys in call order. -/
def Interner.internAll (cap : Nat) (s : Interner α) : List α → Except Panic (List Nat × Interner α)
  | [] => .ok ([], s)
  | x :: xs =>
    match s.intern cap x with
    | .error e => .error e
    | .ok (k, s') =>
      match Interner.internAll cap s' xs with
      | .error e => .error e
      | .ok (ks, s'') => .ok (k :: ks, s'')

/-- Invariant: the table holds exactly the valid positions, and items are unique. -/
structure Interner.WF (s : Interner α) : Prop where
  nodup : s.items.Nodup
  keys_iff : ∀ k : Nat, k ∈ s.keys ↔ k < s.items.length

theorem Interner.WF.new : (Interner.new : Interner α).WF := by
  constructor <;> simp [Interner.new]

theorem Interner.lookup_ok {s : Interner α} (h : s.WF) (x : α) :
    (∃ k : Nat, s.lookup x = .ok (some k) ∧ s.items[k]? = some x) ∨ (s.lookup x = .ok none ∧ x ∉ s.items) := by
  have hall : s.keys.all (fun k => decide (k < s.items.length)) = true := by
    simp only [List.all_eq_true, decide_eq_true_eq]
    exact fun k hk => (h.keys_iff k).1 hk
  unfold Interner.lookup
  rw [if_pos hall]
  cases hf : s.keys.find? (fun k => decide (s.items[k]? = some x)) with
  | some k =>
    left
    exact ⟨k, rfl, by simpa using List.find?_some hf⟩
  | none =>
    right
    refine ⟨rfl, fun hx => ?_⟩
    obtain ⟨k, hk, hx⟩ := List.getElem_of_mem hx
    have := List.find?_eq_none.1 hf k ((h.keys_iff k).2 hk)
    simp [hk, hx] at this

theorem Interner.intern_spec {cap : Nat} {s : Interner α} (h : s.WF) (x : α) :
    (x ∈ s.items ∧ ∃ k : Nat, s.intern cap x = .ok (k, s) ∧ s.items[k]? = some x) ∨
    (x ∉ s.items ∧ s.items.length < cap ∧ ∃ s' : Interner α, s.intern cap x = .ok (s.items.length, s') ∧
        s'.items = s.items ++ [x] ∧ s'.WF) ∨
    (x ∉ s.items ∧ ¬ s.items.length < cap ∧ s.intern cap x = .error .keySpace) := by
  rcases Interner.lookup_ok h x with ⟨k, hk, hx⟩ | ⟨hk, hx⟩
  · left
    exact ⟨List.mem_of_getElem? hx, k, by simp [Interner.intern, hk], hx⟩
  · right
    by_cases hc : s.items.length < cap
    · left
      refine ⟨hx, hc, ⟨s.items ++ [x], s.keys ++ [s.items.length]⟩, by simp [Interner.intern, hk, hc], rfl, ?_⟩
      constructor
      · simp only [List.nodup_append, h.nodup, true_and]
        refine ⟨by simp, ?_⟩
        intro a ha b hb
        simp at hb; subst hb
        rintro rfl; exact hx ha
      · intro k
        simp [h.keys_iff]
        omega
    · right
      exact ⟨hx, hc, by simp [Interner.intern, hk, hc]⟩

theorem Interner.internAll_spec {cap : Nat} (xs : List α) :
    ∀ s : Interner α, s.WF → ∀ ks s', s.internAll cap xs = .ok (ks, s') →
      s'.WF ∧ s.items <+: s'.items ∧ (∀ y, y ∈ s'.items ↔ y ∈ s.items ∨ y ∈ xs) ∧
      ks.map (fun k => s'.items[k]?) = xs.map some := by
  induction xs with
  | nil =>
    intro s h ks s' he
    simp [Interner.internAll] at he
    obtain ⟨rfl, rfl⟩ := he
    simp [h]
  | cons x xs ih =>
    intro s h ks s' he
    simp only [Interner.internAll] at he
    split at he
    · cases he
    rename_i k s1 hi
    split at he
    · cases he
    rename_i ks1 s2 h2
    cases he
    have key : s1.WF ∧ s.items <+: s1.items ∧ (∀ y, y ∈ s1.items ↔ y ∈ s.items ∨ y = x) ∧ s1.items[k]? = some x := by
      rcases Interner.intern_spec (cap := cap) h x with ⟨hx, k', hk, hx'⟩ | ⟨hx, hc, s'', hk, hit, hwf⟩ | ⟨hx, hc, hk⟩
      · rw [hk] at hi; cases hi
        refine ⟨h, List.prefix_rfl, ?_, hx'⟩
        intro y; constructor
        · exact Or.inl
        · rintro (hy | rfl) <;> assumption
      · rw [hk] at hi; cases hi
        refine ⟨hwf, ?_, ?_, ?_⟩
        · rw [hit]; exact List.prefix_append _ _
        · intro y; simp [hit]
        · simp [hit]
      · rw [hk] at hi; cases hi
    obtain ⟨w1, p1, m1, g1⟩ := key
    obtain ⟨w2, p2, m2, g2⟩ := ih s1 w1 _ _ h2
    refine ⟨w2, p1.trans p2, ?_, ?_⟩
    · intro y; rw [m2, m1]; simp; tauto
    · simp only [List.map_cons, g2, List.cons.injEq, and_true]
      obtain ⟨t, ht⟩ := p2
      rw [← ht, List.getElem?_append_left, g1]
      by_contra hcon
      rw [List.getElem?_eq_none (by omega)] at g1
      cases g1

theorem Interner.internAll_err {cap : Nat} (xs : List α) :
    ∀ s : Interner α, s.WF → s.items.length ≤ cap →
      ((∃ ks s', s.internAll cap xs = .ok (ks, s') ∧ (s.items ++ xs).toFinset.card ≤ cap) ∨
       (s.internAll cap xs = .error .keySpace ∧ cap < (s.items ++ xs).toFinset.card)) := by
  induction xs with
  | nil =>
    intro s h hl
    left
    refine ⟨[], s, rfl, ?_⟩
    rw [List.append_nil, List.toFinset_card_of_nodup h.nodup]; exact hl
  | cons x xs ih =>
    intro s h hl
    rcases Interner.intern_spec (cap := cap) h x with ⟨hx, k', hk, hx'⟩ | ⟨hx, hc, s'', hk, hit, hwf⟩ | ⟨hx, hc, hk⟩
    · have hset : (s.items ++ x :: xs).toFinset = (s.items ++ xs).toFinset := by
        ext y; simp only [List.mem_toFinset, List.mem_append, List.mem_cons]
        constructor
        · rintro (h | rfl | h) <;> tauto
        · tauto
      rcases ih s h hl with ⟨ks, s', he, hcard⟩ | ⟨he, hcard⟩
      · left; exact ⟨k' :: ks, s', by simp [Interner.internAll, hk, he], by rw [hset]; exact hcard⟩
      · right; exact ⟨by simp [Interner.internAll, hk, he], by rw [hset]; exact hcard⟩
    · have hset : (s.items ++ x :: xs).toFinset = (s''.items ++ xs).toFinset := by
        simp [hit]
      have hl' : s''.items.length ≤ cap := by simp [hit]; omega
      rcases ih s'' hwf hl' with ⟨ks, s', he, hcard⟩ | ⟨he, hcard⟩
      · left; exact ⟨_ :: ks, s', by simp [Interner.internAll, hk, he]; rfl, by rw [hset]; exact hcard⟩
      · right; exact ⟨by simp [Interner.internAll, hk, he], by rw [hset]; exact hcard⟩
    · right
      refine ⟨by simp [Interner.internAll, hk], ?_⟩
      have h1 : (insert x s.items.toFinset).card ≤ (s.items ++ x :: xs).toFinset.card := by
        apply Finset.card_le_card
        intro y; simp; tauto
      rw [Finset.card_insert_of_notMem (by simpa using hx), List.toFinset_card_of_nodup h.nodup] at h1
      omega

theorem Interner.internAll_append {cap : Nat} (xs ys : List α) :
    ∀ s : Interner α, s.internAll cap (xs ++ ys) =
      match s.internAll cap xs with
      | .error e => .error e
      | .ok (ks, s') => match s'.internAll cap ys with
        | .error e => .error e
        | .ok (ks', s'') => .ok (ks ++ ks', s'') := by
  induction xs with
  | nil => intro s; simp only [List.nil_append, Interner.internAll]; split <;> simp_all
  | cons x xs ih =>
    intro s
    simp only [List.cons_append, Interner.internAll]
    cases h : s.intern cap x with
    | error e => rfl
    | ok p =>
      obtain ⟨k, s1⟩ := p
      simp only [ih]
      cases h2 : s1.internAll cap xs with
      | error e => rfl
      | ok q =>
        obtain ⟨ks, s2⟩ := q
        simp only
        cases h3 : s2.internAll cap ys with
        | error e => rfl
        | ok r => rfl

/-- **C14.** For any history `xs` of `intern` calls that returned keys `ks`: every key resolves to the value that was
interned, in the interner and in its finalized form; keys are equal iff values are equal; `len` is the number of
distinct values. -/
theorem c14_intern_history {cap : Nat} (xs : List α) (ks : List Nat) (s : Interner α)
    (h : (Interner.new : Interner α).internAll cap xs = .ok (ks, s)) :
    ks.length = xs.length ∧
    (∀ (i k : Nat) (x : α), ks[i]? = some k → xs[i]? = some x → s.get k = some x ∧ s.finalize.get k = some x) ∧
    (∀ (i j k l : Nat) (x y : α), ks[i]? = some k → ks[j]? = some l → xs[i]? = some x → xs[j]? = some y →
      (k = l ↔ x = y)) ∧
    s.len = xs.toFinset.card ∧ (s.isEmpty = true ↔ xs = []) := by
  obtain ⟨w, -, m, g⟩ := Interner.internAll_spec xs _ Interner.WF.new _ _ h
  have m' : ∀ y, y ∈ s.items ↔ y ∈ xs := by intro y; rw [m]; simp [Interner.new]
  have hlen : ks.length = xs.length := by simpa using congrArg List.length g
  have hget : ∀ (i k : Nat) (x : α), ks[i]? = some k → xs[i]? = some x → s.items[k]? = some x := by
    intro i k x hk hx
    have := congrArg (fun l => l[i]?) g
    simpa [hk, hx] using this
  refine ⟨hlen, fun i k x hk hx => ⟨hget i k x hk hx, hget i k x hk hx⟩, ?_, ?_, ?_⟩
  · intro i j k l x y hk hl hx hy
    have h1 := hget i k x hk hx
    have h2 := hget j l y hl hy
    constructor
    · rintro rfl; rw [h1] at h2; exact Option.some.inj h2
    · rintro rfl
      have hb : k < s.items.length := by
        by_contra hcon; rw [List.getElem?_eq_none (by omega)] at h1; cases h1
      exact (List.getElem?_inj hb w.nodup).1 (h1.trans h2.symm)
  · unfold Interner.len
    rw [← List.toFinset_card_of_nodup w.nodup]
    congr 1; ext y; simp [m']
  · unfold Interner.isEmpty
    rw [List.isEmpty_iff]
    simp only [List.eq_nil_iff_forall_not_mem, m']

/-- **C14, stability.** Keys handed out by a prefix of a history are handed out unchanged in the longer history, and
the longer history's interner resolves them to the same values. -/
theorem c14_keys_stay_valid {cap : Nat} (xs ys : List α) (ks : List Nat) (s : Interner α)
    (h : (Interner.new : Interner α).internAll cap xs = .ok (ks, s)) (ks' : List Nat) (s' : Interner α)
    (h' : s.internAll cap ys = .ok (ks', s')) :
    (Interner.new : Interner α).internAll cap (xs ++ ys) = .ok (ks ++ ks', s') ∧
    ∀ (k : Nat) (x : α), s.get k = some x → s'.get k = some x ∧ s'.finalize.get k = some x := by
  refine ⟨by rw [Interner.internAll_append, h]; simp [h'], ?_⟩
  obtain ⟨w, -⟩ := Interner.internAll_spec xs _ Interner.WF.new _ _ h
  obtain ⟨-, ⟨t, ht⟩, -⟩ := Interner.internAll_spec ys _ w _ _ h'
  intro k x hk
  have : s'.items[k]? = some x := by
    unfold Interner.get at hk
    rw [← ht, List.getElem?_append_left, hk]
    by_contra hcon
    rw [List.getElem?_eq_none (by omega)] at hk
    cases hk
  exact ⟨this, this⟩

/-- **C14, totality.** A history of `intern` calls panics iff it contains more distinct values than the key type can
number, and then the panic is the documented key space exhaustion (never an out-of-bounds access). -/
theorem c14_panics_iff_exhausted (cap : Nat) (xs : List α) :
    ((∃ r, (Interner.new : Interner α).internAll cap xs = .ok r) ↔ xs.toFinset.card ≤ cap) ∧
    ∀ e, (Interner.new : Interner α).internAll cap xs = .error e → e = .keySpace := by
  rcases Interner.internAll_err (cap := cap) xs _ (Interner.WF.new (α := α)) (by simp [Interner.new]) with
    ⟨ks, s', he, hc⟩ | ⟨he, hc⟩
  · simp only [Interner.new, List.nil_append] at hc
    exact ⟨⟨fun _ => hc, fun _ => ⟨_, he⟩⟩, fun e h => by rw [he] at h; cases h⟩
  · simp only [Interner.new, List.nil_append] at hc
    refine ⟨⟨?_, fun h => by omega⟩, fun e h => by rw [he] at h; cases h; rfl⟩
    rintro ⟨r, hr⟩; rw [he] at hr; cases hr

/-- Non-vacuity: a history with repetitions. -/
example : (Interner.new : Interner Nat).internAll 3 [7, 8, 7, 9, 8]
    = .ok ([0, 1, 0, 2, 1], ⟨[7, 8, 9], [0, 1, 2]⟩) := rfl

/-- Non-vacuity: exhaustion of a two-value key space. -/
example : (Interner.new : Interner Nat).internAll 2 [7, 8, 7, 9] = .error .keySpace := rfl

end Verif.Intern
