/-
Model of `cpparser::interning::recursion::RecursiveSequenceInterner` (cpparser/src/interning/recursion.rs) and
property C19.
-/
import Verif.Intern.Seq

set_option autoImplicit false
set_option linter.unusedSectionVars false
set_option linter.unusedSimpArgs false

namespace Verif.Intern

variable {α : Type} [DecidableEq α]

/-- cpparser/src/interning/recursion.rs:12-37: the `RefCell`'d state (interner and storage of recycled buffers), plus
the buffers of the entries (recursion.rs:86-98 `SequenceEntry { interner, sequence }`) that are currently alive in the
caller, indexed by order of creation. -/
structure RecState (α : Type) where
  interner : SeqInterner α
  storage : List (List α)
  /-- number of entries created so far -/
  created : Nat
  /-- buffers of the live entries -/
  live : Nat → Option (List α)

/-- Calls a client can make. -/
inductive RecOp (α : Type) where
  /-- `interner.entry()` -/
  | entry
  /-- `entry.push(item)` on the entry created by the `id`-th `entry()` call -/
  | push (id : Nat) (x : α)
  /-- `entry.intern()` -/
  | finish (id : Nat)
  /-- `drop(entry)` -/
  | drop (id : Nat)
  /-- `interner.intern(&q)` -/
  | intern (q : List α)

inductive RecRes where
  | opened (id : Nat)
  | unit
  | key (k : Nat)
  | panicked (p : Panic)
  /-- the call is impossible in Rust: the entry was never created, or was already consumed -/
  | invalid
  deriving DecidableEq

/-- cpparser/src/interning/recursion.rs:34-40 `new` -/
def RecState.new : RecState α := ⟨SeqInterner.new, [], 0, fun _ => none⟩

/-- recursion.rs:119-129 `Drop`: the buffer goes back to the storage, *without* being cleared. -/
def RecState.recycle (s : RecState α) (id : Nat) (buf : List α) : RecState α :=
  { s with storage := s.storage ++ [buf], live := fun i => if i = id then none else s.live i }

/-- One call. `entry` (recursion.rs:66-80) pops a recycled buffer and clears it, or creates a new one; `push`
(recursion.rs:105-107) appends to the entry's own buffer; `intern` (recursion.rs:110-116) interns the buffer, then the
entry is dropped, also when interning panics. -/
def RecState.step (c : KeyCfg) (s : RecState α) : RecOp α → RecRes × RecState α
  | .entry =>
    let (buf, storage) := match s.storage.getLast? with
      | some b => (b.take 0, s.storage.dropLast)   -- `sequence.clear()`
      | none => ([], s.storage)
    (.opened s.created,
      { s with storage := storage, created := s.created + 1,
               live := fun i => if i = s.created then some buf else s.live i })
  | .push id x =>
    match s.live id with
    | none => (.invalid, s)
    | some buf => (.unit, { s with live := fun i => if i = id then some (buf ++ [x]) else s.live i })
  | .finish id =>
    match s.live id with
    | none => (.invalid, s)
    | some buf =>
      match s.interner.intern c buf with
      | .ok (k, inner) => (.key k, { s with interner := inner }.recycle id buf)
      | .error p => (.panicked p, s.recycle id buf)
  | .drop id =>
    match s.live id with
    | none => (.invalid, s)
    | some buf => (.unit, s.recycle id buf)
  | .intern q =>
    match s.interner.intern c q with
    | .ok (k, inner) => (.key k, { s with interner := inner })
    | .error p => (.panicked p, s)

/-- A history of calls. -/
def RecState.run (c : KeyCfg) (s : RecState α) (ops : List (RecOp α)) : List RecRes × RecState α :=
  ops.foldl (fun acc o => let (r, s') := acc.2.step c o; (acc.1 ++ [r], s')) ([], s)

/-! ## Specification -/

/-- The items pushed to entry `id` in a history, in order. -/
def pushedTo (id : Nat) (ops : List (RecOp α)) : List α :=
  ops.filterMap fun
    | .push i x => if i = id then some x else none
    | _ => none

/-- The sequence that the last call of the history `ops ++ [o]` asks to intern. -/
def submittedBy (ops : List (RecOp α)) : RecOp α → Option (List α)
  | .finish id => some (pushedTo id ops)
  | .intern q => some q
  | _ => none

/-! ## Proofs -/

theorem RecState.run_snoc (c : KeyCfg) (s : RecState α) (ops : List (RecOp α)) (o : RecOp α) :
    s.run c (ops ++ [o]) = ((s.run c ops).1 ++ [((s.run c ops).2.step c o).1], ((s.run c ops).2.step c o).2) := by
  simp [RecState.run, List.foldl_append]

theorem RecState.run_length (c : KeyCfg) (s : RecState α) (ops : List (RecOp α)) :
    (s.run c ops).1.length = ops.length := by
  induction ops using List.reverseRecOn with
  | nil => rfl
  | append_singleton ops o ih => rw [RecState.run_snoc]; simp [ih]

/-- A direct interning call, in terms of the representation. -/
theorem intern_rep {c : KeyCfg} {s : SeqInterner α} {qs : List (List α)} (h : Rep c s qs) (q : List α) :
    (∃ k s' qs', s.intern c q = .ok (k, s') ∧ Rep c s' qs' ∧ qs <+: qs' ∧
      ∃ i : Nat, s'.sequences[i]? = some k ∧ qs'[i]? = some q) ∨
    s.intern c q = .error .keySpace := by
  obtain ⟨⟨qs', hrep, hpre, hkey, -⟩, -, hpan⟩ := step_spec h (.intern q)
  cases hi : s.intern c q with
  | ok p =>
    obtain ⟨k, s'⟩ := p
    have hst : s.step c (.intern q) = (.key k, s') := by simp [SeqInterner.step, hi]
    rw [hst] at hrep hkey
    exact Or.inl ⟨k, s', qs', rfl, hrep, hpre, (hkey q k rfl rfl).1⟩
  | error e =>
    have hst : s.step c (.intern q) = (.panicked e, s) := by simp [SeqInterner.step, hi]
    have := (hpan q rfl).2 (by rw [hst]; simp)
    rw [hst] at this
    simp at this; subst this
    exact Or.inr rfl

theorem idx_mono {c : KeyCfg} {s s' : SeqInterner α} {qs qs' : List (List α)} (h : Rep c s qs) (h' : Rep c s' qs')
    (hp : qs <+: qs') {i k : Nat} {q : List α} (hi : s.sequences[i]? = some k) (hq : qs[i]? = some q) :
    s'.sequences[i]? = some k ∧ qs'[i]? = some q := by
  obtain ⟨t, ht⟩ := hp
  constructor
  · rw [h.keys] at hi
    rw [h'.keys, ← ht, keysOf_append, List.getElem?_append_left, hi]
    by_contra hcon
    rw [List.getElem?_eq_none (by omega)] at hi; cases hi
  · rw [← ht, List.getElem?_append_left, hq]
    by_contra hcon
    rw [List.getElem?_eq_none (by omega)] at hq; cases hq

theorem pushedTo_snoc_push (id i : Nat) (x : α) (ops : List (RecOp α)) :
    pushedTo id (ops ++ [.push i x]) = pushedTo id ops ++ (if i = id then [x] else []) := by
  unfold pushedTo
  by_cases h : i = id <;> simp [List.filterMap_append, h]

theorem pushedTo_snoc_other (id : Nat) (o : RecOp α) (ho : ∀ i x, o ≠ .push i x) (ops : List (RecOp α)) :
    pushedTo id (ops ++ [o]) = pushedTo id ops := by
  unfold pushedTo
  cases o with
  | push i x => exact absurd rfl (ho i x)
  | _ => simp [List.filterMap_append]

/-- The invariant over a valid history. -/
theorem rec_invariant (c : KeyCfg) (ops : List (RecOp α))
    (hv : RecRes.invalid ∉ ((RecState.new : RecState α).run c ops).1) :
    ∃ qs, Rep c ((RecState.new : RecState α).run c ops).2.interner qs ∧
      (∀ id buf, ((RecState.new : RecState α).run c ops).2.live id = some buf → buf = pushedTo id ops) ∧
      (∀ id, ((RecState.new : RecState α).run c ops).2.created ≤ id →
        ((RecState.new : RecState α).run c ops).2.live id = none ∧ pushedTo id ops = []) ∧
      (∀ (j : Nat) (o : RecOp α) (q : List α) (k : Nat), ops[j]? = some o →
        ((RecState.new : RecState α).run c ops).1[j]? = some (.key k) → submittedBy (ops.take j) o = some q →
        ∃ i : Nat, ((RecState.new : RecState α).run c ops).2.interner.sequences[i]? = some k ∧ qs[i]? = some q) ∧
      (∀ p, RecRes.panicked p ∈ ((RecState.new : RecState α).run c ops).1 → p = .keySpace) ∧
      (∀ (j : Nat) (k : Nat) (o : RecOp α), ops[j]? = some o →
        ((RecState.new : RecState α).run c ops).1[j]? = some (.key k) → (submittedBy (ops.take j) o).isSome) := by
  induction ops using List.reverseRecOn with
  | nil =>
    refine ⟨[], Rep.new c, ?_, ?_, ?_, ?_, ?_⟩ <;> simp [RecState.run, RecState.new, pushedTo]
  | append_singleton ops o ih =>
    rw [RecState.run_snoc] at hv ⊢
    simp only at hv ⊢
    have hv1 : RecRes.invalid ∉ ((RecState.new : RecState α).run c ops).1 := fun h => hv (by simp [h])
    have hv2 : (((RecState.new : RecState α).run c ops).2.step c o).1 ≠ .invalid := fun h => hv (by simp [h])
    obtain ⟨qs, hrep, hlive, hfresh, hkeys, hpan, hsome⟩ := ih hv1
    have hlen := RecState.run_length c (RecState.new : RecState α) ops
    generalize hrs : ((RecState.new : RecState α).run c ops).1 = rs at *
    generalize hs : ((RecState.new : RecState α).run c ops).2 = s at *
    -- it suffices to describe the last step
    suffices hlast : ∃ qs', Rep c (s.step c o).2.interner qs' ∧ qs <+: qs' ∧
        (∀ id buf, (s.step c o).2.live id = some buf → buf = pushedTo id (ops ++ [o])) ∧
        (∀ id, (s.step c o).2.created ≤ id → (s.step c o).2.live id = none ∧ pushedTo id (ops ++ [o]) = []) ∧
        (∀ k, (s.step c o).1 = .key k → ∃ q, submittedBy ops o = some q ∧
          ∃ i : Nat, (s.step c o).2.interner.sequences[i]? = some k ∧ qs'[i]? = some q) ∧
        (∀ p, (s.step c o).1 = .panicked p → p = .keySpace) by
      obtain ⟨qs', hrep', hpre, hlive', hfresh', hkey', hpan'⟩ := hlast
      refine ⟨qs', hrep', hlive', hfresh', ?_, ?_, ?_⟩
      · intro j o' q k ho' hk hq
        by_cases hj : j < ops.length
        · rw [List.getElem?_append_left hj] at ho'
          rw [List.getElem?_append_left (by omega)] at hk
          rw [List.take_append_of_le_length (by omega)] at hq
          obtain ⟨i, hi, hqi⟩ := hkeys j o' q k ho' hk hq
          exact ⟨i, idx_mono hrep hrep' hpre hi hqi⟩
        · have hj' : j = ops.length := by
            by_contra hne
            rw [List.getElem?_eq_none (by simp; omega)] at ho'; cases ho'
          subst hj'
          simp at ho'; subst ho'
          rw [← hlen] at hk; simp at hk
          rw [List.take_left'] at hq
          · obtain ⟨q', hq', i, hi, hqi⟩ := hkey' k hk
            rw [hq] at hq'; cases hq'
            exact ⟨i, hi, hqi⟩
          · rfl
      · intro p hp
        rcases List.mem_append.1 hp with hp | hp
        · exact hpan p hp
        · simp at hp; exact hpan' p hp.symm
      · intro j k o' ho' hk
        by_cases hj : j < ops.length
        · rw [List.getElem?_append_left hj] at ho'
          rw [List.getElem?_append_left (by omega)] at hk
          rw [List.take_append_of_le_length (by omega)]
          exact hsome j k o' ho' hk
        · have hj' : j = ops.length := by
            by_contra hne
            rw [List.getElem?_eq_none (by simp; omega)] at ho'; cases ho'
          subst hj'
          simp at ho'; subst ho'
          rw [← hlen] at hk; simp at hk
          rw [List.take_left' rfl]
          obtain ⟨q', hq', -⟩ := hkey' k hk
          rw [hq']; rfl
    cases o with
    | entry =>
      have hno : ∀ id, pushedTo id (ops ++ [RecOp.entry]) = pushedTo id ops :=
        fun id => pushedTo_snoc_other id _ (by simp) ops
      have hstep : ∃ st, s.step c .entry = (.opened s.created,
          { s with storage := st, created := s.created + 1,
                   live := fun i => if i = s.created then some [] else s.live i }) := by
        cases hg : s.storage.getLast? with
        | none => exact ⟨s.storage, by simp [RecState.step, hg]⟩
        | some b => exact ⟨s.storage.dropLast, by simp [RecState.step, hg]⟩
      obtain ⟨st, hst⟩ := hstep
      rw [hst]
      refine ⟨qs, hrep, List.prefix_rfl, ?_, ?_, by simp, by simp⟩
      · intro id buf hb
        rw [hno]
        simp only at hb
        split at hb
        · rename_i hid; cases hb
          rw [(hfresh id (by omega)).2]
        · exact hlive id buf hb
      · intro id hid
        simp only at hid ⊢
        rw [hno, if_neg (by omega)]
        exact hfresh id (by omega)
    | push id x =>
      cases hl : s.live id with
      | none => simp [RecState.step, hl] at hv2
      | some buf =>
        have hst : s.step c (.push id x) =
            (.unit, { s with live := fun i => if i = id then some (buf ++ [x]) else s.live i }) := by
          simp [RecState.step, hl]
        rw [hst]
        refine ⟨qs, hrep, List.prefix_rfl, ?_, ?_, by simp, by simp⟩
        · intro id' buf' hb
          rw [pushedTo_snoc_push]
          simp only at hb
          split at hb
          · rename_i hid; subst hid; cases hb; simp [hlive id' buf hl]
          · rename_i hid; rw [if_neg (fun h => hid h.symm)]; simpa using hlive id' buf' hb
        · intro id' hid
          simp only at hid ⊢
          have hne : id' ≠ id := by
            rintro rfl; rw [(hfresh id' hid).1] at hl; cases hl
          rw [if_neg hne, pushedTo_snoc_push, if_neg (fun h => hne h.symm)]
          simpa using hfresh id' hid
    | drop id =>
      have hno : ∀ id', pushedTo id' (ops ++ [RecOp.drop id]) = pushedTo id' ops :=
        fun id' => pushedTo_snoc_other id' _ (by simp) ops
      cases hl : s.live id with
      | none => simp [RecState.step, hl] at hv2
      | some buf =>
        have hst : s.step c (.drop id) = (.unit, s.recycle id buf) := by simp [RecState.step, hl]
        rw [hst]
        refine ⟨qs, hrep, List.prefix_rfl, ?_, ?_, by simp, by simp⟩
        · intro id' buf' hb
          rw [hno]
          simp only [RecState.recycle] at hb
          split at hb
          · cases hb
          · exact hlive id' buf' hb
        · intro id' hid
          simp only [RecState.recycle] at hid ⊢
          rw [hno]
          refine ⟨?_, (hfresh id' hid).2⟩
          split
          · rfl
          · exact (hfresh id' hid).1
    | finish id =>
      have hno : ∀ id', pushedTo id' (ops ++ [RecOp.finish id]) = pushedTo id' ops :=
        fun id' => pushedTo_snoc_other id' _ (by simp) ops
      cases hl : s.live id with
      | none => simp [RecState.step, hl] at hv2
      | some buf =>
        have hbuf := hlive id buf hl
        have hl' : ∀ (s' : RecState α), s'.live = s.live → s'.created = s.created →
            (∀ id' buf', (s'.recycle id buf).live id' = some buf' → buf' = pushedTo id' (ops ++ [RecOp.finish id])) ∧
            (∀ id', (s'.recycle id buf).created ≤ id' →
              (s'.recycle id buf).live id' = none ∧ pushedTo id' (ops ++ [RecOp.finish id]) = []) := by
          intro s' hlv hcr
          constructor
          · intro id' buf' hb
            rw [hno]
            simp only [RecState.recycle, hlv] at hb
            split at hb
            · cases hb
            · exact hlive id' buf' hb
          · intro id' hid
            simp only [RecState.recycle, hlv, hcr] at hid ⊢
            rw [hno]
            refine ⟨?_, (hfresh id' hid).2⟩
            split
            · rfl
            · exact (hfresh id' hid).1
        rcases intern_rep hrep buf with ⟨k, s', qs', hi, hrep', hpre, i, hik, hiq⟩ | hi
        · have hst : s.step c (.finish id) = (.key k, ({ s with interner := s' } : RecState α).recycle id buf) := by
            simp [RecState.step, hl, hi]
          rw [hst]
          refine ⟨qs', hrep', hpre, (hl' _ rfl rfl).1, (hl' _ rfl rfl).2, ?_, by simp⟩
          intro k' hk'
          simp at hk'; subst hk'
          exact ⟨pushedTo id ops, rfl, i, hik, by rw [← hbuf]; exact hiq⟩
        · have hst : s.step c (.finish id) = (.panicked .keySpace, s.recycle id buf) := by
            simp [RecState.step, hl, hi]
          rw [hst]
          refine ⟨qs, hrep, List.prefix_rfl, (hl' _ rfl rfl).1, (hl' _ rfl rfl).2, by simp, ?_⟩
          intro p hp; simp at hp; exact hp.symm
    | intern q =>
      have hno : ∀ id', pushedTo id' (ops ++ [RecOp.intern q]) = pushedTo id' ops :=
        fun id' => pushedTo_snoc_other id' _ (by simp) ops
      rcases intern_rep hrep q with ⟨k, s', qs', hi, hrep', hpre, i, hik, hiq⟩ | hi
      · have hst : s.step c (.intern q) = (.key k, { s with interner := s' }) := by
          simp [RecState.step, hi]
        rw [hst]
        refine ⟨qs', hrep', hpre, fun id' buf' hb => ?_, fun id' hid => ?_, ?_, by simp⟩
        · rw [hno]; exact hlive id' buf' hb
        · rw [hno]; exact hfresh id' hid
        · intro k' hk'
          simp at hk'; subst hk'
          exact ⟨q, rfl, i, hik, hiq⟩
      · have hst : s.step c (.intern q) = (.panicked .keySpace, s) := by
          simp [RecState.step, hi]
        rw [hst]
        refine ⟨qs, hrep, List.prefix_rfl, fun id' buf' hb => ?_, fun id' hid => ?_, by simp, ?_⟩
        · rw [hno]; exact hlive id' buf' hb
        · rw [hno]; exact hfresh id' hid
        · intro p hp; simp at hp; exact hp.symm

/-- **C19.** In every possible interleaving of entries: interning an entry yields a key that resolves, at the end of the
history, to exactly the items pushed to *that* entry, in order; direct interning likewise; keys are equal iff the
sequences are equal; and the only panic is key space exhaustion. "Possible" excludes calls on entries that do not
exist (which Rust's ownership rules exclude). -/
theorem c19_entries_do_not_interfere (c : KeyCfg) (ops : List (RecOp α)) (rs : List RecRes) (s : RecState α)
    (h : (RecState.new : RecState α).run c ops = (rs, s)) (hv : RecRes.invalid ∉ rs) :
    (∀ (j : Nat) (o : RecOp α) (k : Nat), ops[j]? = some o → rs[j]? = some (.key k) →
      ∃ q, submittedBy (ops.take j) o = some q ∧ s.interner.get c k = some q) ∧
    (∀ (j j' : Nat) (o o' : RecOp α) (k k' : Nat) (q q' : List α), ops[j]? = some o → ops[j']? = some o' →
      rs[j]? = some (.key k) → rs[j']? = some (.key k') →
      submittedBy (ops.take j) o = some q → submittedBy (ops.take j') o' = some q' → (k = k' ↔ q = q')) ∧
    (∀ p, RecRes.panicked p ∈ rs → p = .keySpace) := by
  have hinv := rec_invariant c ops (by rw [h]; exact hv)
  rw [h] at hinv
  obtain ⟨qs, hrep, -, -, hkeys, hpan, hsome⟩ := hinv
  simp only at hrep hkeys hpan hsome
  refine ⟨?_, ?_, hpan⟩
  · intro j o k ho hk
    obtain ⟨q, hq⟩ := Option.isSome_iff_exists.1 (hsome j k o ho hk)
    refine ⟨q, hq, ?_⟩
    obtain ⟨i, hi, hqi⟩ := hkeys j o q k ho hk hq
    have hsl := keysOf_slice c qs hrep.short [] []
    simp only [List.nil_append, List.append_nil, List.length_nil] at hsl
    have h2 := congrArg (fun l => l[i]?) hsl
    rw [hrep.keys] at hi
    unfold SeqInterner.get
    rw [hrep.cat]
    simpa [hi, hqi] using h2
  · intro j j' o o' k k' q q' ho ho' hk hk' hq hq'
    obtain ⟨i, hi, hqi⟩ := hkeys j o q k ho hk hq
    obtain ⟨i', hi', hqi'⟩ := hkeys j' o' q' k' ho' hk' hq'
    rw [hrep.keys] at hi hi'
    exact keysOf_nodup c qs hrep.short hrep.nodup [] i i' k k' q q' hi hi' hqi hqi'

/-- **C19, liveness of the API.** In a valid history `finish` and `drop` never fail other than by exhaustion, and
`entry`/`push` always succeed: a call is invalid iff it names an entry that is not alive. -/
theorem c19_invalid_iff_not_alive (c : KeyCfg) (s : RecState α) (o : RecOp α) :
    (s.step c o).1 = .invalid ↔
      ∃ id, (o = .finish id ∨ o = .drop id ∨ ∃ x, o = .push id x) ∧ s.live id = none := by
  cases o with
  | entry => simp [RecState.step]
  | push id x => cases hl : s.live id <;> simp [RecState.step, hl]
  | drop id => cases hl : s.live id <;> simp [RecState.step, hl]
  | finish id =>
    cases hl : s.live id with
    | none => simp [RecState.step, hl]
    | some buf =>
      cases hi : s.interner.intern c buf with
      | ok p => obtain ⟨k, s'⟩ := p; simp [RecState.step, hl, hi]
      | error p => simp [RecState.step, hl, hi]
  | intern q =>
    cases hi : s.interner.intern c q with
    | ok p => obtain ⟨k, s'⟩ := p; simp [RecState.step, hi]
    | error p => simp [RecState.step, hi]

/-- Non-vacuity: two interleaved entries, one dropped with items in its buffer, whose buffer is then recycled. -/
example : ((RecState.new : RecState Nat).run defaultCfg
    [.entry, .push 0 1, .entry, .push 1 7, .push 0 2, .drop 1, .entry, .push 2 1, .push 2 2, .finish 2, .finish 0,
      .intern [7]]).1 =
    [.opened 0, .unit, .opened 1, .unit, .unit, .unit, .opened 2, .unit, .unit, .key 2, .key 2, .key 513] := by
  decide

end Verif.Intern
