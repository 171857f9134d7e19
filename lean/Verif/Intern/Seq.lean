/-
Model of `asylum::sequence::{SequenceInterner, SequenceEntry, InternedSequences}` (asylum/src/sequence.rs:62-293) and
properties C16, C17.
-/
import Mathlib.Data.List.Basic
import Mathlib.Data.List.Flatten
import Mathlib.Data.List.MinMax
import Mathlib.Data.Finset.Dedup
import Mathlib.Data.Finset.Card
import Mathlib.Algebra.BigOperators.Group.Finset.Basic
import Verif.Intern.Interner
import Verif.Intern.SeqKey

set_option autoImplicit false
set_option linter.unusedSectionVars false
set_option linter.unusedSimpArgs false

namespace Verif.Intern

variable {α : Type} [DecidableEq α]

/-! ## Model -/

/-- Rust's `&v[start..end]`, `none` = panic (inverted or out-of-bounds range). -/
def slice (l : List α) (r : Nat × Nat) : Option (List α) :=
  if r.1 ≤ r.2 ∧ r.2 ≤ l.length then some ((l.drop r.1).take (r.2 - r.1)) else none

/-- asylum/src/sequence.rs:92-105 `SequenceInterner { concatenated, random_state, sequences }`. As for `Interner`, keys
are represented by their packed `usize`, the hash table by the list of its keys. -/
structure SeqInterner (α : Type) where
  concatenated : List α
  sequences : List Nat
  deriving Repr, DecidableEq

namespace SeqInterner

/-- asylum/src/sequence.rs:107-114 `SequenceInterner::new` -/
def new : SeqInterner α := ⟨[], []⟩

/-- asylum/src/sequence.rs:161-164, 222-224 `SequenceInterner::get` -/
def get (c : KeyCfg) (s : SeqInterner α) (k : Nat) : Option (List α) := slice s.concatenated (unpack c k)

/-- asylum/src/sequence.rs:116-122 `get_sequence_key`. The model panics if *any* stored key is out of bounds. -/
def getSequenceKey (c : KeyCfg) (s : SeqInterner α) (q : List α) : Except Panic (Option Nat) :=
  if s.sequences.all (fun k => (slice s.concatenated (unpack c k)).isSome) then
    .ok (s.sequences.find? (fun k => decide (slice s.concatenated (unpack c k) = some q)))
  else .error .outOfBounds

/-- asylum/src/sequence.rs:145-159 `SequenceInterner::intern` -/
def intern (c : KeyCfg) (s : SeqInterner α) (q : List α) : Except Panic (Nat × SeqInterner α) :=
  match s.getSequenceKey c q with
  | .error e => .error e
  | .ok (some k) => .ok (k, s)
  | .ok none =>
    let start := s.concatenated.length
    match tryPack c start (start + q.length) with
    | none => .error .keySpace
    | some key => .ok (key, ⟨s.concatenated ++ q, s.sequences ++ [key]⟩)

/-- asylum/src/sequence.rs:172-174 `SequenceInterner::len` -/
def len (s : SeqInterner α) : Nat := s.sequences.length

/-- asylum/src/sequence.rs:167-169 `SequenceInterner::is_empty` -/
def isEmpty (s : SeqInterner α) : Bool := s.len == 0

/-- asylum/src/sequence.rs:177-179 `SequenceInterner::num_items` -/
def numItems (s : SeqInterner α) : Nat := s.concatenated.length

/-- asylum/src/sequence.rs:182-193 `SequenceInterner::max_sequence_len` -/
def maxSequenceLen (c : KeyCfg) (s : SeqInterner α) : Option Nat :=
  (s.sequences.map (fun k => (unpack c k).2 - (unpack c k).1)).max?

/-- asylum/src/sequence.rs:196-201 `finalize`: only the concatenated items are kept -/
def finalize (s : SeqInterner α) : List α := s.concatenated

end SeqInterner

/-- asylum/src/sequence.rs:75-90 `InternedSequences::get` -/
def internedSequencesGet (c : KeyCfg) (cat : List α) (k : Nat) : Option (List α) := slice cat (unpack c k)

/-- asylum/src/sequence.rs:227-238 `SequenceEntry`: the (exclusively borrowed) interner and the initial length of its
item vector. -/
structure SeqEntry (α : Type) where
  interner : SeqInterner α
  initial : Nat

/-- Calls that can be made on an open entry. -/
inductive EOp (α : Type) where
  | push (x : α)
  | pop
  | len

/-- What they return. -/
inductive EOut (α : Type) where
  | unit
  | popped (x : Option α)
  | len (n : Nat)
  deriving DecidableEq

/-- asylum/src/sequence.rs:136-142 `SequenceInterner::entry` -/
def SeqInterner.entry (s : SeqInterner α) : SeqEntry α := ⟨s, s.concatenated.length⟩

namespace SeqEntry

/-- asylum/src/sequence.rs:243-245 `push` -/
def push (e : SeqEntry α) (x : α) : SeqEntry α :=
  { e with interner := { e.interner with concatenated := e.interner.concatenated ++ [x] } }

/-- asylum/src/sequence.rs:248-254 `pop` -/
def pop (e : SeqEntry α) : Option α × SeqEntry α :=
  if e.initial < e.interner.concatenated.length then
    (e.interner.concatenated.getLast?,
      { e with interner := { e.interner with concatenated := e.interner.concatenated.dropLast } })
  else (none, e)

/-- asylum/src/sequence.rs:257-259 `len` -/
def len (e : SeqEntry α) : Nat := e.interner.concatenated.length - e.initial

/-- One call on an open entry. -/
def step (e : SeqEntry α) : EOp α → EOut α × SeqEntry α
  | .push x => (.unit, e.push x)
  | .pop => (.popped e.pop.1, e.pop.2)
  | .len => (.len e.len, e)

/-- A sequence of calls on an open entry, with their results. -/
def run (e : SeqEntry α) : List (EOp α) → List (EOut α) × SeqEntry α
  | [] => ([], e)
  | o :: os => let (r, e') := e.step o; let (rs, e'') := SeqEntry.run e' os; (r :: rs, e'')

/-- asylum/src/sequence.rs:285-293 `Drop`: truncate the interner's items to the initial length. -/
def drop (e : SeqEntry α) : SeqInterner α :=
  { e.interner with concatenated := e.interner.concatenated.take e.initial }

/-- asylum/src/sequence.rs:267-282 `SequenceEntry::intern(self)`. On a panic (while computing the new key, *before*
looking for an existing one) and when the sequence was already interned, the entry is dropped; otherwise the drop is
inhibited (`mem::forget`). -/
def intern (c : KeyCfg) (e : SeqEntry α) : Except Panic Nat × SeqInterner α :=
  let q := e.interner.concatenated.drop e.initial
  let start := e.initial
  match tryPack c start (start + q.length) with
  | none => (.error .keySpace, e.drop)
  | some newKey =>
    match e.interner.getSequenceKey c q with
    | .error p => (.error p, e.drop)
    | .ok (some oldKey) => (.ok oldKey, e.drop)
    | .ok none => (.ok newKey, { e.interner with sequences := e.interner.sequences ++ [newKey] })

end SeqEntry

/-- The transactions a client can make on an interner. An entry borrows the interner exclusively, so everything that
happens between `entry()` and the end of the entry is a sequence of calls on that entry. -/
inductive SeqOp (α : Type) where
  /-- `interner.intern(&q)` -/
  | intern (q : List α)
  /-- `let e = interner.entry(); calls...; e.intern()` -/
  | entry (calls : List (EOp α))
  /-- `let e = interner.entry(); calls...; drop(e)` -/
  | abandon (calls : List (EOp α))

/-- Result of a transaction. -/
inductive SeqRes where
  | key (k : Nat)
  | abandoned
  | panicked (p : Panic)
  deriving DecidableEq

/-- One transaction. A panic is caught and leaves the interner as the unwinding leaves it. -/
def SeqInterner.step (c : KeyCfg) (s : SeqInterner α) : SeqOp α → SeqRes × SeqInterner α
  | .intern q => match s.intern c q with
    | .ok (k, s') => (.key k, s')
    | .error p => (.panicked p, s)
  | .entry calls => match (s.entry.run calls).2.intern c with
    | (.ok k, s') => (.key k, s')
    | (.error p, s') => (.panicked p, s')
  | .abandon calls => (.abandoned, (s.entry.run calls).2.drop)

/-- A history of transactions with their results. -/
def SeqInterner.run (c : KeyCfg) (s : SeqInterner α) : List (SeqOp α) → List SeqRes × SeqInterner α
  | [] => ([], s)
  | o :: os =>
    let (r, s') := s.step c o
    let (rs, s'') := SeqInterner.run c s' os
    (r :: rs, s'')

/-! ## Specification -/

/-- Reference stack (top at the end of the list). -/
def stackStep (st : List α) : EOp α → EOut α × List α
  | .push x => (.unit, st ++ [x])
  | .pop => (.popped st.getLast?, st.dropLast)
  | .len => (.len st.length, st)

/-- Reference stack run. -/
def stackRun (st : List α) : List (EOp α) → List (EOut α) × List α
  | [] => ([], st)
  | o :: os => let (r, st') := stackStep st o; let (rs, st'') := stackRun st' os; (r :: rs, st'')

/-- The sequence of items a transaction submits for interning. -/
def SeqOp.submitted : SeqOp α → Option (List α)
  | .intern q => some q
  | .entry calls => some (stackRun [] calls).2
  | .abandon _ => none

/-- What was interned by a history: the (sequence, key) pairs of the transactions that returned a key. -/
def internedBy : List (SeqOp α) → List SeqRes → List (List α × Nat)
  | o :: os, r :: rs =>
    match o.submitted, r with
    | some q, .key k => (q, k) :: internedBy os rs
    | _, _ => internedBy os rs
  | _, _ => []

/-! ## C17: an entry is a private stack -/

theorem SeqEntry.run_spec (calls : List (EOp α)) :
    ∀ (pre st : List α) (keys : List Nat),
      (SeqEntry.mk (α := α) ⟨pre ++ st, keys⟩ pre.length).run calls =
        ((stackRun st calls).1, SeqEntry.mk ⟨pre ++ (stackRun st calls).2, keys⟩ pre.length) := by
  induction calls with
  | nil => intro pre st keys; rfl
  | cons o os ih =>
    intro pre st keys
    cases o with
    | push x =>
      simp only [SeqEntry.run, SeqEntry.step, SeqEntry.push, stackRun, stackStep, List.append_assoc, ih]
    | pop =>
      by_cases hst : st = []
      · subst hst
        have := ih pre [] keys
        simp only [SeqEntry.run, SeqEntry.step, SeqEntry.pop, stackRun, stackStep] at *
        simp only [List.append_nil, lt_irrefl, if_false, List.getLast?_nil, List.dropLast_nil] at *
        rw [this]
      · have hpos : pre.length < (pre ++ st).length := by
          have := List.length_pos_iff.2 hst
          simp; omega
        simp only [SeqEntry.run, SeqEntry.step, SeqEntry.pop, stackRun, stackStep, if_pos hpos]
        rw [List.dropLast_append_of_ne_nil hst, List.getLast?_append_of_ne_nil _ hst, ih]
    | len =>
      simp only [SeqEntry.run, SeqEntry.step, SeqEntry.len, stackRun, stackStep, ih]
      simp

/-- **C17.** Any sequence of push/pop/len calls on a freshly opened entry returns exactly what an initially empty stack
would return, and leaves all previously interned items (and keys) of the interner in place. -/
theorem c17_entry_is_private_stack (s : SeqInterner α) (calls : List (EOp α)) :
    (s.entry.run calls).1 = (stackRun [] calls).1 ∧
    (s.entry.run calls).2.len = (stackRun [] calls).2.length ∧
    (s.entry.run calls).2.interner.concatenated = s.concatenated ++ (stackRun [] calls).2 ∧
    (s.entry.run calls).2.interner.sequences = s.sequences := by
  have h := SeqEntry.run_spec calls s.concatenated [] s.sequences
  simp only [List.append_nil] at h
  have he : s.entry = SeqEntry.mk ⟨s.concatenated, s.sequences⟩ s.concatenated.length := rfl
  rw [he, h]
  simp [SeqEntry.len]

/-- **C17.** Dropping an entry after any calls restores the interner exactly. -/
theorem c17_abandon_restores (s : SeqInterner α) (calls : List (EOp α)) :
    (s.entry.run calls).2.drop = s := by
  have h := SeqEntry.run_spec calls s.concatenated [] s.sequences
  simp only [List.append_nil] at h
  have he : s.entry = SeqEntry.mk ⟨s.concatenated, s.sequences⟩ s.concatenated.length := rfl
  rw [he, h]
  simp [SeqEntry.drop]

/-- **C17.** Popping more than was pushed yields nothing, however many items the interner already holds. -/
theorem c17_pop_empty (s : SeqInterner α) (calls : List (EOp α)) (h : (stackRun [] calls).2 = []) :
    (s.entry.run calls).2.pop.1 = none := by
  have h' := SeqEntry.run_spec calls s.concatenated [] s.sequences
  simp only [List.append_nil] at h'
  have he : s.entry = SeqEntry.mk ⟨s.concatenated, s.sequences⟩ s.concatenated.length := rfl
  rw [he, h', h]
  simp [SeqEntry.pop]

/-- Non-vacuity of C17: a run with successful pops, a pop of an empty entry, on a non-empty interner. -/
example : ((SeqInterner.mk [10, 11] [2]).entry.run [.push 1, .push 2, .pop, .len, .pop, .pop, .push 3]).1 =
    [.unit, .unit, .popped (some 2), .len 1, .popped (some 1), .popped none, .unit] := by decide

/-! ## C16 -/

/-- The keys of consecutive sequences stored from offset `off`. -/
def keysOf (c : KeyCfg) (off : Nat) : List (List α) → List Nat
  | [] => []
  | q :: qs => (off * 2 ^ c.L + q.length) :: keysOf c (off + q.length) qs

/-- Representation invariant: the interner stores the distinct sequences `qs`, one after the other. -/
structure Rep (c : KeyCfg) (s : SeqInterner α) (qs : List (List α)) : Prop where
  cat : s.concatenated = qs.flatten
  keys : s.sequences = keysOf c 0 qs
  nodup : qs.Nodup
  short : ∀ q ∈ qs, q.length < 2 ^ c.L

theorem keysOf_length (c : KeyCfg) (off : Nat) (qs : List (List α)) : (keysOf c off qs).length = qs.length := by
  induction qs generalizing off with
  | nil => rfl
  | cons q qs ih => simp [keysOf, ih]

theorem keysOf_append (c : KeyCfg) (off : Nat) (qs qs' : List (List α)) :
    keysOf c off (qs ++ qs') = keysOf c off qs ++ keysOf c (off + qs.flatten.length) qs' := by
  induction qs generalizing off with
  | nil => simp [keysOf]
  | cons q qs ih => simp [keysOf, ih, Nat.add_assoc]

theorem unpack_pack (c : KeyCfg) (off len : Nat) (h : len < 2 ^ c.L) :
    unpack c (off * 2 ^ c.L + len) = (off, off + len) := by
  rw [unpack_eq]
  have hp : 0 < 2 ^ c.L := by positivity
  have hd : (off * 2 ^ c.L + len) / 2 ^ c.L = off := by
    rw [mul_comm, Nat.mul_add_div hp, Nat.div_eq_of_lt h]; simp
  have hm : (off * 2 ^ c.L + len) % 2 ^ c.L = len := by
    rw [mul_comm, Nat.mul_add_mod, Nat.mod_eq_of_lt h]
  rw [hd, hm]

theorem slice_mid (pre q suf : List α) : slice (pre ++ q ++ suf) (pre.length, pre.length + q.length) = some q := by
  unfold slice
  rw [if_pos (by simp)]
  simp

theorem keysOf_slice (c : KeyCfg) (qs : List (List α)) (hs : ∀ q ∈ qs, q.length < 2 ^ c.L) :
    ∀ (pre suf : List α), (keysOf c pre.length qs).map (fun k => slice (pre ++ qs.flatten ++ suf) (unpack c k)) =
      qs.map some := by
  induction qs with
  | nil => intro pre suf; rfl
  | cons q qs ih =>
    intro pre suf
    simp only [keysOf, List.map_cons, List.cons.injEq]
    constructor
    · rw [unpack_pack c _ _ (hs q (by simp))]
      have := slice_mid pre q (qs.flatten ++ suf)
      simpa using this
    · have := ih (fun q' h => hs q' (by simp [h])) (pre ++ q) suf
      simpa using this

theorem keysOf_nodup (c : KeyCfg) (qs : List (List α)) (hs : ∀ q ∈ qs, q.length < 2 ^ c.L) (hn : qs.Nodup)
    (suf : List α) :
    ∀ (i j k l : Nat) (x y : List α), (keysOf c 0 qs)[i]? = some k → (keysOf c 0 qs)[j]? = some l →
      qs[i]? = some x → qs[j]? = some y → (k = l ↔ x = y) := by
  intro i j k l x y hk hl hx hy
  have h := keysOf_slice c qs hs [] suf
  simp only [List.nil_append, List.length_nil] at h
  have h1 : slice (qs.flatten ++ suf) (unpack c k) = some x := by
    have := congrArg (fun l => l[i]?) h
    simpa [hk, hx] using this
  have h2 : slice (qs.flatten ++ suf) (unpack c l) = some y := by
    have := congrArg (fun l => l[j]?) h
    simpa [hl, hy] using this
  constructor
  · rintro rfl; rw [h1] at h2; exact Option.some.inj h2
  · rintro rfl
    have hi : i < qs.length := by
      by_contra hcon; rw [List.getElem?_eq_none (by omega)] at hx; cases hx
    have := (List.getElem?_inj hi hn).1 (hx.trans hy.symm)
    subst this
    rw [hk] at hl; exact Option.some.inj hl

/-- Dedupe lookup on an interner whose item vector may carry the items `suf` of an open entry. -/
theorem lookup_spec (c : KeyCfg) (qs : List (List α)) (hs : ∀ q ∈ qs, q.length < 2 ^ c.L) (suf q : List α) :
    (∃ (i k : Nat), (SeqInterner.mk (qs.flatten ++ suf) (keysOf c 0 qs)).getSequenceKey c q = .ok (some k) ∧
        (keysOf c 0 qs)[i]? = some k ∧ qs[i]? = some q) ∨
    ((SeqInterner.mk (qs.flatten ++ suf) (keysOf c 0 qs)).getSequenceKey c q = .ok none ∧ q ∉ qs) := by
  have h := keysOf_slice c qs hs [] suf
  simp only [List.nil_append, List.length_nil] at h
  have hidx : ∀ (i k : Nat) , (keysOf c 0 qs)[i]? = some k → slice (qs.flatten ++ suf) (unpack c k) = qs[i]? := by
    intro i k hk
    have h2 := congrArg (fun l => l[i]?) h
    simp only [List.getElem?_map, hk, Option.map_some] at h2
    cases hq : qs[i]? with
    | none => rw [hq] at h2; simp at h2
    | some y => rw [hq] at h2; simpa using h2
  have hall : (keysOf c 0 qs).all (fun k => (slice (qs.flatten ++ suf) (unpack c k)).isSome) = true := by
    rw [List.all_eq_true]
    intro k hk
    have : slice (qs.flatten ++ suf) (unpack c k) ∈ qs.map some := by
      rw [← h]; exact List.mem_map.2 ⟨k, hk, rfl⟩
    obtain ⟨y, -, hy⟩ := List.mem_map.1 this
    rw [← hy]; rfl
  unfold SeqInterner.getSequenceKey
  simp only
  rw [if_pos hall]
  cases hf : (keysOf c 0 qs).find? (fun k => decide (slice (qs.flatten ++ suf) (unpack c k) = some q)) with
  | some k =>
    left
    obtain ⟨i, hi⟩ := List.getElem?_of_mem (List.mem_of_find?_eq_some hf)
    have hp := List.find?_some hf
    simp only [decide_eq_true_eq] at hp
    exact ⟨i, k, rfl, hi, by rw [← hidx i k hi]; exact hp⟩
  | none =>
    right
    refine ⟨rfl, fun hq => ?_⟩
    obtain ⟨i, hi⟩ := List.getElem?_of_mem hq
    have hlt : i < (keysOf c 0 qs).length := by
      rw [keysOf_length]
      by_contra hcon; rw [List.getElem?_eq_none (by omega)] at hi; cases hi
    have hk : (keysOf c 0 qs)[i]? = some (keysOf c 0 qs)[i] := by simp [hlt]
    have := List.find?_eq_none.1 hf _ (List.getElem_mem hlt)
    simp [hidx i _ hk, hi] at this

/-- If every stored sequence fits the length field, the field is zero bits wide only if no item is stored. -/
theorem flatten_of_zero_bits (c : KeyCfg) (hL : c.L = 0) (qs : List (List α)) (hs : ∀ q ∈ qs, q.length < 2 ^ c.L) :
    qs.flatten.length = 0 := by
  simp only [List.length_eq_zero_iff, List.flatten_eq_nil_iff]
  intro q hq
  have := hs q hq
  rw [hL] at this
  simpa using this

theorem tryPack_eq' (c : KeyCfg) (start stop : Nat) (h : c.L = 0 → start = 0) :
    tryPack c start stop = if Fits c start stop then some (start * 2 ^ c.L + (stop - start)) else none := by
  by_cases hs : start < 2 ^ c.W
  · exact tryPack_eq c start stop hs
  · have hp : 0 < 2 ^ c.W := by positivity
    have hL : c.L ≠ 0 := by intro h0; rw [h h0] at hs; exact hs hp
    have hsz : ¬ start.size ≤ c.W := fun hc => hs (Nat.size_le.1 hc)
    have hlz : leadingZeros c.W start < c.L := by unfold leadingZeros; omega
    have hf : ¬ Fits c start stop := by
      rintro ⟨-, h2, -⟩
      have : 2 ^ (c.W - c.L) ≤ 2 ^ c.W := Nat.pow_le_pow_right (by omega) (by omega)
      omega
    rw [if_neg hf]
    unfold tryPack
    rw [if_pos hlz]

/-- What one transaction does to the representation. -/
theorem step_spec {c : KeyCfg} {s : SeqInterner α} {qs : List (List α)} (h : Rep c s qs) (o : SeqOp α) :
    (∃ qs', Rep c (s.step c o).2 qs' ∧ qs <+: qs' ∧
      (∀ q k, o.submitted = some q → (s.step c o).1 = .key k →
        (∃ i : Nat, (s.step c o).2.sequences[i]? = some k ∧ qs'[i]? = some q) ∧ ∀ y, y ∈ qs' ↔ y ∈ qs ∨ y = q) ∧
      ((∀ k, (s.step c o).1 ≠ .key k) → qs' = qs)) ∧
    (o.submitted = none → (s.step c o) = (.abandoned, s)) ∧
    (∀ q, o.submitted = some q →
      ((∃ k, (s.step c o).1 = .key k) ↔
        (Fits c s.concatenated.length (s.concatenated.length + q.length) ∨
          (q ∈ qs ∧ ∃ q', o = .intern q'))) ∧
      ((∀ k, (s.step c o).1 ≠ .key k) → s.step c o = (.panicked .keySpace, s))) := by
  have hz : c.L = 0 → s.concatenated.length = 0 := fun h0 => by rw [h.cat]; exact flatten_of_zero_bits c h0 qs h.short
  have hs_eq : s = ⟨qs.flatten, keysOf c 0 qs⟩ := by
    cases s; simp only [SeqInterner.mk.injEq]; exact ⟨h.cat, h.keys⟩
  -- storing a new sequence
  have hnew : ∀ q : List α, q ∉ qs → Fits c s.concatenated.length (s.concatenated.length + q.length) →
      Rep c ⟨s.concatenated ++ q, s.sequences ++ [s.concatenated.length * 2 ^ c.L + q.length]⟩ (qs ++ [q]) := by
    intro q hq hf
    refine ⟨by simp [h.cat], ?_, ?_, ?_⟩
    · simp [h.keys, keysOf_append, keysOf, h.cat]
    · rw [List.nodup_append]
      refine ⟨h.nodup, by simp, ?_⟩
      intro a ha b hb; simp at hb; subst hb; rintro rfl; exact hq ha
    · intro x hx
      simp only [List.mem_append, List.mem_singleton] at hx
      rcases hx with hx | rfl
      · exact h.short x hx
      · have := hf.1; simpa using this
  cases o with
  | abandon calls =>
    have hd := c17_abandon_restores s calls
    have hst : s.step c (.abandon calls) = (.abandoned, s) := by simp [SeqInterner.step, hd]
    rw [hst]
    refine ⟨⟨qs, h, List.prefix_rfl, ?_, fun _ => rfl⟩, fun _ => rfl, ?_⟩
    · intro q k hq; simp [SeqOp.submitted] at hq
    · intro q hq; simp [SeqOp.submitted] at hq
  | intern q =>
    have hl := lookup_spec c qs h.short [] q
    simp only [List.append_nil] at hl
    rw [← hs_eq] at hl
    rcases hl with ⟨i, k, hg, hk, hq⟩ | ⟨hg, hq⟩
    · have hst : s.step c (.intern q) = (.key k, s) := by simp [SeqInterner.step, SeqInterner.intern, hg]
      rw [hst]
      refine ⟨⟨qs, h, List.prefix_rfl, ?_, fun _ => rfl⟩, fun hn => by simp [SeqOp.submitted] at hn, ?_⟩
      · intro q' k' hq' hk'
        simp [SeqOp.submitted] at hq'; subst hq'
        cases hk'
        refine ⟨⟨i, by rw [h.keys]; exact hk, hq⟩, ?_⟩
        intro y; constructor
        · exact Or.inl
        · rintro (hy | rfl)
          · exact hy
          · exact List.mem_of_getElem? hq
      · intro q' hq'
        simp [SeqOp.submitted] at hq'; subst hq'
        refine ⟨⟨fun _ => Or.inr ⟨List.mem_of_getElem? hq, q, rfl⟩, fun _ => ⟨k, rfl⟩⟩, ?_⟩
        intro hno; exact absurd rfl (hno k)
    · by_cases hf : Fits c s.concatenated.length (s.concatenated.length + q.length)
      · have hst : s.step c (.intern q) = (.key (s.concatenated.length * 2 ^ c.L + q.length),
            ⟨s.concatenated ++ q, s.sequences ++ [s.concatenated.length * 2 ^ c.L + q.length]⟩) := by
          simp [SeqInterner.step, SeqInterner.intern, hg, tryPack_eq' c _ _ hz, hf]
        rw [hst]
        have hr := hnew q hq hf
        refine ⟨⟨qs ++ [q], hr, List.prefix_append _ _, ?_, fun hno => absurd rfl (hno _)⟩,
          fun hn => by simp [SeqOp.submitted] at hn, ?_⟩
        · intro q' k' hq' hk'
          simp [SeqOp.submitted] at hq'; subst hq'
          cases hk'
          refine ⟨⟨qs.length, ?_, by simp⟩, fun y => by simp⟩
          simp only
          rw [List.getElem?_append_right (by rw [h.keys, keysOf_length])]
          rw [h.keys, keysOf_length]; simp
        · intro q' hq'
          simp [SeqOp.submitted] at hq'; subst hq'
          exact ⟨⟨fun _ => Or.inl hf, fun _ => ⟨_, rfl⟩⟩, fun hno => absurd rfl (hno _)⟩
      · have hst : s.step c (.intern q) = (.panicked .keySpace, s) := by
          simp [SeqInterner.step, SeqInterner.intern, hg, tryPack_eq' c _ _ hz, hf]
        rw [hst]
        refine ⟨⟨qs, h, List.prefix_rfl, ?_, fun _ => rfl⟩, fun hn => by simp [SeqOp.submitted] at hn, ?_⟩
        · intro q' k' _ hk'; cases hk'
        · intro q' hq'
          simp [SeqOp.submitted] at hq'; subst hq'
          refine ⟨⟨?_, ?_⟩, fun _ => rfl⟩
          · rintro ⟨k, hk⟩; cases hk
          · rintro (hf' | ⟨hq', -⟩)
            · exact absurd hf' hf
            · exact absurd hq' hq
  | entry calls =>
    have hrun := SeqEntry.run_spec calls s.concatenated [] s.sequences
    simp only [List.append_nil] at hrun
    have he : s.entry = SeqEntry.mk ⟨s.concatenated, s.sequences⟩ s.concatenated.length := rfl
    rw [← he] at hrun
    generalize hq : (stackRun [] calls).2 = q at *
    generalize (stackRun [] calls).1 = outs at *
    have hdrop : (SeqEntry.mk (α := α) ⟨s.concatenated ++ q, s.sequences⟩ s.concatenated.length).drop = s := by
      simp [SeqEntry.drop]
    have hsub : (SeqOp.entry calls).submitted = some q := by simp [SeqOp.submitted, hq]
    have hl := lookup_spec c qs h.short q q
    have hcat : (SeqInterner.mk (qs.flatten ++ q) (keysOf c 0 qs)) = ⟨s.concatenated ++ q, s.sequences⟩ := by
      rw [h.cat, h.keys]
    rw [hcat] at hl
    by_cases hf : Fits c s.concatenated.length (s.concatenated.length + q.length)
    · rcases hl with ⟨i, k, hg, hk, hqi⟩ | ⟨hg, hqn⟩
      · have hst : s.step c (.entry calls) = (.key k, s) := by
          simp [SeqInterner.step, hrun, SeqEntry.intern, tryPack_eq' c _ _ hz, hf, hg, hdrop]
        rw [hst]
        refine ⟨⟨qs, h, List.prefix_rfl, ?_, fun _ => rfl⟩, fun hn => (by rw [hsub] at hn; cases hn), ?_⟩
        · intro q' k' hq' hk'
          rw [hsub] at hq'; cases hq'
          cases hk'
          refine ⟨⟨i, by rw [h.keys]; exact hk, hqi⟩, ?_⟩
          intro y; constructor
          · exact Or.inl
          · rintro (hy | rfl)
            · exact hy
            · exact List.mem_of_getElem? hqi
        · intro q' hq'
          rw [hsub] at hq'; cases hq'
          exact ⟨⟨fun _ => Or.inl hf, fun _ => ⟨k, rfl⟩⟩, fun hno => absurd rfl (hno k)⟩
      · have hst : s.step c (.entry calls) = (.key (s.concatenated.length * 2 ^ c.L + q.length),
            ⟨s.concatenated ++ q, s.sequences ++ [s.concatenated.length * 2 ^ c.L + q.length]⟩) := by
          simp [SeqInterner.step, hrun, SeqEntry.intern, tryPack_eq' c _ _ hz, hf, hg, hdrop]
        rw [hst]
        have hr := hnew q hqn hf
        refine ⟨⟨qs ++ [q], hr, List.prefix_append _ _, ?_, fun hno => absurd rfl (hno _)⟩,
          fun hn => (by rw [hsub] at hn; cases hn), ?_⟩
        · intro q' k' hq' hk'
          rw [hsub] at hq'; cases hq'
          cases hk'
          refine ⟨⟨qs.length, ?_, by simp⟩, fun y => by simp⟩
          simp only
          rw [List.getElem?_append_right (by rw [h.keys, keysOf_length])]
          rw [h.keys, keysOf_length]; simp
        · intro q' hq'
          rw [hsub] at hq'; cases hq'
          exact ⟨⟨fun _ => Or.inl hf, fun _ => ⟨_, rfl⟩⟩, fun hno => absurd rfl (hno _)⟩
    · have hst : s.step c (.entry calls) = (.panicked .keySpace, s) := by
        simp [SeqInterner.step, hrun, SeqEntry.intern, tryPack_eq' c _ _ hz, hf, hdrop]
      rw [hst]
      refine ⟨⟨qs, h, List.prefix_rfl, ?_, fun _ => rfl⟩, fun hn => (by rw [hsub] at hn; cases hn), ?_⟩
      · intro q' k' _ hk'; cases hk'
      · intro q' hq'
        rw [hsub] at hq'; cases hq'
        refine ⟨⟨?_, ?_⟩, fun _ => rfl⟩
        · rintro ⟨k, hk⟩; cases hk
        · rintro (hf' | ⟨-, q'', hq''⟩)
          · exact absurd hf' hf
          · cases hq''

theorem run_spec {c : KeyCfg} (ops : List (SeqOp α)) :
    ∀ (s : SeqInterner α) (qs : List (List α)), Rep c s qs →
      ∃ qs', Rep c (s.run c ops).2 qs' ∧ qs <+: qs' ∧
        (∀ q k, (q, k) ∈ internedBy ops (s.run c ops).1 →
          ∃ i : Nat, (s.run c ops).2.sequences[i]? = some k ∧ qs'[i]? = some q) ∧
        (∀ y, y ∈ qs' ↔ y ∈ qs ∨ ∃ k, (y, k) ∈ internedBy ops (s.run c ops).1) := by
  induction ops with
  | nil =>
    intro s qs h
    exact ⟨qs, h, List.prefix_rfl, by simp [SeqInterner.run, internedBy], by simp [SeqInterner.run, internedBy]⟩
  | cons o os ih =>
    intro s qs h
    obtain ⟨⟨qs1, h1, p1, k1, n1⟩, -⟩ := step_spec h o
    obtain ⟨qs2, h2, p2, k2, m2⟩ := ih _ _ h1
    have hr : s.run c (o :: os) = ((s.step c o).1 :: ((s.step c o).2.run c os).1, ((s.step c o).2.run c os).2) := rfl
    rw [hr]
    refine ⟨qs2, h2, p1.trans p2, ?_, ?_⟩
    · intro q k hqk
      simp only [internedBy] at hqk
      split at hqk
      · rename_i q' k' hsub hkey
        rcases List.mem_cons.1 hqk with heq | hin
        · cases heq
          obtain ⟨⟨i, hi, hq⟩, -⟩ := k1 q k hsub hkey
          refine ⟨i, ?_, ?_⟩
          · obtain ⟨t, ht⟩ := p2
            rw [h1.keys] at hi
            simp only [h2.keys, ← ht, keysOf_append]
            rw [List.getElem?_append_left, hi]
            by_contra hcon
            rw [List.getElem?_eq_none (by omega)] at hi; cases hi
          · obtain ⟨t, ht⟩ := p2
            rw [← ht, List.getElem?_append_left, hq]
            by_contra hcon
            rw [List.getElem?_eq_none (by omega)] at hq; cases hq
        · exact k2 q k hin
      · exact k2 q k hqk
    · intro y
      rw [m2]
      simp only [internedBy]
      split
      · rename_i q' k' hsub hkey
        rw [(k1 q' k' hsub hkey).2]
        simp only [List.mem_cons, Prod.mk.injEq]
        constructor
        · rintro ((hy | rfl) | ⟨k, hk⟩)
          · exact Or.inl hy
          · exact Or.inr ⟨k', Or.inl ⟨rfl, rfl⟩⟩
          · exact Or.inr ⟨k, Or.inr hk⟩
        · rintro (hy | ⟨k, ⟨rfl, rfl⟩ | hk⟩)
          · exact Or.inl (Or.inl hy)
          · exact Or.inl (Or.inr rfl)
          · exact Or.inr ⟨k, hk⟩
      · rename_i hno
        have : qs1 = qs := by
          cases hsub : o.submitted with
          | none =>
            apply n1
            intro k hk
            have := (step_spec h o).2.1 hsub
            rw [this] at hk; cases hk
          | some q =>
            apply n1
            intro k hk
            exact hno q k hsub hk
        rw [this]

theorem Rep.new (c : KeyCfg) : Rep c (SeqInterner.new : SeqInterner α) [] :=
  ⟨rfl, rfl, List.nodup_nil, by simp⟩

/-- **C16.** For every history of transactions on a new interner: each key that was returned resolves to exactly the
sequence that was submitted, at the end of the history (in the interner and in its finalized form), and two keys
returned anywhere in the history are equal iff the submitted sequences are equal. -/
theorem c16_sequences_history (c : KeyCfg) (ops : List (SeqOp α)) (rs : List SeqRes) (s : SeqInterner α)
    (h : (SeqInterner.new : SeqInterner α).run c ops = (rs, s)) :
    (∀ q k, (q, k) ∈ internedBy ops rs → s.get c k = some q ∧ internedSequencesGet c s.finalize k = some q) ∧
    (∀ q k q' k', (q, k) ∈ internedBy ops rs → (q', k') ∈ internedBy ops rs → (k = k' ↔ q = q')) := by
  obtain ⟨qs, hrep, -, hk, -⟩ := run_spec (c := c) ops _ _ (Rep.new c)
  rw [h] at hrep hk
  have hsl := keysOf_slice c qs hrep.short [] []
  simp only [List.nil_append, List.append_nil, List.length_nil] at hsl
  constructor
  · intro q k hqk
    obtain ⟨i, hi, hq⟩ := hk q k hqk
    have : slice s.concatenated (unpack c k) = some q := by
      have h2 := congrArg (fun l => l[i]?) hsl
      simp only at hi
      rw [hrep.keys] at hi
      rw [hrep.cat]
      simpa [hi, hq] using h2
    exact ⟨this, this⟩
  · intro q k q' k' h1 h2
    obtain ⟨i, hi, hq⟩ := hk q k h1
    obtain ⟨j, hj, hq'⟩ := hk q' k' h2
    simp only at hi hj
    rw [hrep.keys] at hi hj
    exact keysOf_nodup c qs hrep.short hrep.nodup [] i j k k' q q' hi hj hq hq'

/-- The distinct sequences interned by a history. -/
def distinctInterned (ops : List (SeqOp α)) (rs : List SeqRes) : Finset (List α) :=
  ((internedBy ops rs).map Prod.fst).toFinset

/-- **C16, counters.** After any history: `len` is the number of distinct sequences, `num_items` is the total length
of the distinct sequences, and `max_sequence_len` is their maximal length (`None` iff nothing was interned). -/
theorem c16_counters (c : KeyCfg) (ops : List (SeqOp α)) (rs : List SeqRes) (s : SeqInterner α)
    (h : (SeqInterner.new : SeqInterner α).run c ops = (rs, s)) :
    s.len = (distinctInterned ops rs).card ∧
    (s.isEmpty = true ↔ internedBy ops rs = []) ∧
    s.numItems = ∑ q ∈ distinctInterned ops rs, q.length ∧
    (∀ m, s.maxSequenceLen c = some m ↔
      (∃ q ∈ distinctInterned ops rs, q.length = m) ∧ ∀ q ∈ distinctInterned ops rs, q.length ≤ m) ∧
    (s.maxSequenceLen c = none ↔ internedBy ops rs = []) := by
  obtain ⟨qs, hrep, -, hk, hm⟩ := run_spec (c := c) ops _ _ (Rep.new c)
  rw [h] at hrep hk hm
  simp only [List.not_mem_nil, false_or] at hm
  have hset : distinctInterned ops rs = qs.toFinset := by
    ext y
    simp [distinctInterned, hm]
  have hlens : s.sequences.map (fun k => (unpack c k).2 - (unpack c k).1) = qs.map List.length := by
    have hr := hrep.keys
    simp only at hr
    rw [hr]
    have hshort := hrep.short
    clear hr hset hm hk hrep h
    have : ∀ off, (keysOf c off qs).map (fun k => (unpack c k).2 - (unpack c k).1) = qs.map List.length := by
      induction qs with
      | nil => intro off; rfl
      | cons q qs ih =>
        intro off
        simp only [keysOf, List.map_cons]
        rw [unpack_pack c off q.length (hshort q (by simp)), ih (fun q' h => hshort q' (by simp [h]))]
        simp
    exact this 0
  have hempty : qs = [] ↔ internedBy ops rs = [] := by
    constructor
    · intro h0
      rw [List.eq_nil_iff_forall_not_mem]
      rintro ⟨q, k⟩ hqk
      have := (hm q).2 ⟨k, hqk⟩
      rw [h0] at this; cases this
    · intro h0
      rw [List.eq_nil_iff_forall_not_mem]
      intro q hq
      obtain ⟨k, hk⟩ := (hm q).1 hq
      rw [h0] at hk; cases hk
  have hl : s.len = qs.length := by
    unfold SeqInterner.len
    have := hrep.keys; simp only at this
    rw [this, keysOf_length]
  refine ⟨?_, ?_, ?_, ?_, ?_⟩
  · rw [hl, hset, List.toFinset_card_of_nodup hrep.nodup]
  · rw [← hempty]; simp [SeqInterner.isEmpty, hl]
  · rw [hset, List.sum_toFinset _ hrep.nodup]
    unfold SeqInterner.numItems
    have := hrep.cat; simp only at this
    rw [this, List.length_flatten]
  · intro m
    unfold SeqInterner.maxSequenceLen
    rw [hlens, List.max?_eq_some_iff]
    simp [hset]
  · unfold SeqInterner.maxSequenceLen
    rw [hlens, List.max?_eq_none_iff, ← hempty]; simp

/-- **C16, abandoned entries leave no trace.** Removing the abandoned entries from a history changes neither the final
interner nor the (sequence, key) pairs of the others. -/
theorem c16_abandoned_leave_no_trace (c : KeyCfg) (ops : List (SeqOp α)) :
    ∀ s : SeqInterner α,
      (s.run c (ops.filter fun o => o.submitted.isSome)).2 = (s.run c ops).2 ∧
      internedBy (ops.filter fun o => o.submitted.isSome) (s.run c (ops.filter fun o => o.submitted.isSome)).1 =
        internedBy ops (s.run c ops).1 := by
  induction ops with
  | nil => intro s; simp
  | cons o os ih =>
    intro s
    cases o with
    | abandon calls =>
      have hst : s.step c (.abandon calls) = (.abandoned, s) := by
        simp [SeqInterner.step, c17_abandon_restores s calls]
      have := ih s
      simpa [SeqInterner.run, hst, SeqOp.submitted, internedBy] using this
    | intern q =>
      have hif : (SeqOp.intern q : SeqOp α).submitted.isSome = true := rfl
      simp only [List.filter_cons, hif, if_true]
      have hr : ∀ l, s.run c (SeqOp.intern q :: l) = ((s.step c (.intern q)).1 :: ((s.step c (.intern q)).2.run c l).1,
        ((s.step c (.intern q)).2.run c l).2) := fun l => rfl
      rw [hr, hr]
      obtain ⟨h1, h2⟩ := ih (s.step c (.intern q)).2
      refine ⟨h1, ?_⟩
      simp only [internedBy, h2]
    | entry calls =>
      have hif : (SeqOp.entry calls : SeqOp α).submitted.isSome = true := rfl
      simp only [List.filter_cons, hif, if_true]
      have hr : ∀ l, s.run c (SeqOp.entry calls :: l) =
        ((s.step c (.entry calls)).1 :: ((s.step c (.entry calls)).2.run c l).1,
        ((s.step c (.entry calls)).2.run c l).2) := fun l => rfl
      rw [hr, hr]
      obtain ⟨h1, h2⟩ := ih (s.step c (.entry calls)).2
      refine ⟨h1, ?_⟩
      simp only [internedBy, h2]

/-- **C16, when interning panics.** After any history, interning `q` directly succeeds iff `q` was interned before or
fits after the items stored so far; interning it through an entry succeeds iff it fits, *even if it was interned
before*. A failing transaction panics with key space exhaustion and leaves the interner unchanged. -/
theorem c16_panics_iff (c : KeyCfg) (ops : List (SeqOp α)) (rs : List SeqRes) (s : SeqInterner α)
    (h : (SeqInterner.new : SeqInterner α).run c ops = (rs, s)) (o : SeqOp α) (q : List α)
    (hq : o.submitted = some q) :
    ((∃ k, (s.step c o).1 = .key k) ↔
      (Fits c s.numItems (s.numItems + q.length) ∨ (q ∈ distinctInterned ops rs ∧ ∃ q', o = .intern q'))) ∧
    ((∀ k, (s.step c o).1 ≠ .key k) → s.step c o = (.panicked .keySpace, s)) := by
  obtain ⟨qs, hrep, -, hk, hm⟩ := run_spec (c := c) ops _ _ (Rep.new c)
  rw [h] at hrep hk hm
  simp only [List.not_mem_nil, false_or] at hm
  have hset : q ∈ distinctInterned ops rs ↔ q ∈ qs := by
    simp [distinctInterned, hm]
  rw [hset]
  exact (step_spec hrep o).2.2 q hq

/-- Non-vacuity: direct interning, re-interning through an entry with pops, an abandoned entry, and an empty sequence. -/
example : (SeqInterner.new : SeqInterner Nat).run defaultCfg
      [.intern [1, 2], .abandon [.push 9, .push 9], .entry [.push 1, .push 5, .pop, .push 2], .intern [], .entry [.push 2]]
    = ([.key 2, .abandoned, .key 2, .key 512, .key 513], ⟨[1, 2, 2], [2, 512, 513]⟩) := by decide

/-- Non-vacuity: an entry panics on an already interned sequence once the key space is exhausted; direct interning of
the same sequence does not. -/
example :
    let c : KeyCfg := ⟨64, 1, 3, by decide, by decide⟩
    (SeqInterner.new : SeqInterner Nat).run c [.intern [7], .entry [.push 7], .intern [7]]
      = ([.key 1, .panicked .keySpace, .key 1], ⟨[7], [1]⟩) := by decide

end Verif.Intern
