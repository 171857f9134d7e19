import Verif.Intern.Path
import Verif.Intern.Rec

/-! # C18, C19: interning fails only when the key space is exhausted

The history theorems say what a returned key means; the theorems of this file say exactly when a
key is returned, so that an implementation that gives up early is ruled out. -/

set_option autoImplicit false
set_option linter.unusedVariables false
set_option linter.unusedSimpArgs false
set_option linter.unusedSectionVars false

namespace Verif.Intern

/-- Every component a path mentions, including those a later `..` cancels. -/
def mentioned (path : Name) : List Name := (partsOf path).filter fun n => n ≠ ['.', '.']

/-- Names that `walk` interns. -/
def namesIn : List Comp → List Name
  | [] => []
  | .rootDir :: cs => ['/'] :: namesIn cs
  | .normal n :: cs => n :: namesIn cs
  | _ :: cs => namesIn cs

theorem namesIn_parts (ps : List Name) : namesIn (ps.filterMap compOfPart) =
    (ps.filter fun n => n ≠ [] ∧ n ≠ ['.']).filter fun n => n ≠ ['.', '.'] := by
  induction ps with
  | nil => rfl
  | cons n ps ih =>
    by_cases h1 : n = []
    · subst h1; simpa [compOfPart] using ih
    · by_cases h2 : n = ['.']
      · subst h2; simpa [compOfPart] using ih
      · by_cases h3 : n = ['.', '.']
        · subst h3; simpa [compOfPart, namesIn] using ih
        · simpa [compOfPart, namesIn, h1, h2, h3] using ih

theorem namesIn_abs (rest : Name) :
    namesIn (pathComponents ('/' :: rest)) = ['/'] :: mentioned ('/' :: rest) := by
  show ['/'] :: namesIn ((splitSlash rest).filterMap compOfPart) = _
  rw [namesIn_parts]
  simp [mentioned, partsOf, splitSlash]

theorem walk_capacity {cap : Nat} (cs : List Comp) : ∀ (comps : Interner Name) (e : SeqEntry Nat),
    comps.WF → comps.items.length ≤ cap →
    ((walk cap comps e cs).1 = none ↔ (comps.items ++ namesIn cs).toFinset.card ≤ cap) ∧
    (walk cap comps e cs).2.1.items.length ≤ cap := by
  have key : ∀ (cs : List Comp) (n : Name),
      (∀ (comps : Interner Name) (e : SeqEntry Nat), comps.WF → comps.items.length ≤ cap →
        ((walk cap comps e cs).1 = none ↔ (comps.items ++ namesIn cs).toFinset.card ≤ cap) ∧
        (walk cap comps e cs).2.1.items.length ≤ cap) →
      ∀ (comps : Interner Name) (e : SeqEntry Nat), comps.WF → comps.items.length ≤ cap →
        ((walk cap comps e (.normal n :: cs)).1 = none ↔
          (comps.items ++ n :: namesIn cs).toFinset.card ≤ cap) ∧
        (walk cap comps e (.normal n :: cs)).2.1.items.length ≤ cap := by
    intro cs n ih comps e w hl
    rcases Interner.intern_spec (cap := cap) w n with ⟨hm, k, hk, -⟩ | ⟨hm, hlt, s', hk, hs', w'⟩ | ⟨hm, hlt, hk⟩
    · simp only [walk, hk]
      have := ih comps (e.push k) w hl
      have hset : (comps.items ++ n :: namesIn cs).toFinset = (comps.items ++ namesIn cs).toFinset := by
        ext x
        simp only [List.mem_toFinset, List.mem_append, List.mem_cons]
        constructor
        · rintro (h | rfl | h)
          · exact .inl h
          · exact .inl hm
          · exact .inr h
        · rintro (h | h)
          · exact .inl h
          · exact .inr (.inr h)
      rw [hset]
      exact this
    · simp only [walk, hk]
      have := ih s' (e.push comps.items.length) w' (by rw [hs']; simp; omega)
      rw [hs', List.append_assoc] at this
      exact this
    · simp only [walk, hk]
      refine ⟨?_, hl⟩
      have hcard : cap < (comps.items ++ n :: namesIn cs).toFinset.card := by
        have h1 : (comps.items ++ [n]).Nodup := by
          rw [List.nodup_append]
          refine ⟨w.nodup, by simp, ?_⟩
          rintro a ha b hb rfl
          simp at hb; subst hb; exact hm ha
        have h2 : (comps.items ++ [n]).toFinset ⊆ (comps.items ++ n :: namesIn cs).toFinset := by
          intro x; simp only [List.mem_toFinset, List.mem_append, List.mem_cons]; tauto
        have h3 := Finset.card_le_card h2
        rw [List.toFinset_card_of_nodup h1] at h3
        simp at h3
        simp
        omega
      simp
      simpa using hcard
  induction cs with
  | nil =>
    intro comps e w hl
    refine ⟨?_, hl⟩
    simp only [walk, namesIn, List.append_nil, true_iff]
    rw [List.toFinset_card_of_nodup w.nodup]; exact hl
  | cons c cs ih =>
    intro comps e w hl
    cases c with
    | rootDir => exact key cs ['/'] ih comps e w hl
    | normal n => exact key cs n ih comps e w hl
    | curDir => simpa only [walk, namesIn] using ih comps e w hl
    | parentDir =>
      simp only [walk, namesIn]
      split
      · exact ih comps _ w hl
      · exact ih comps _ w hl

theorem intern_capacity {c : KeyCfg} {cap : Nat} {s : PathInterner} (w : s.components.WF)
    (hl : s.components.items.length ≤ cap) (p : Name) :
    (s.intern c cap p).2.components.items.length ≤ cap := by
  unfold PathInterner.intern
  split
  · exact hl
  · have := (walk_capacity (cap := cap) (pathComponents p) s.components s.sequences.entry w hl).2
    split
    · rename_i hw; rw [hw] at this; exact this
    · rename_i hw
      rw [hw] at this
      split <;> exact this

theorem run_capacity {c : KeyCfg} {cap : Nat} (ps : List Name) :
    ∀ (s : PathInterner) (qs : List (List Nat)), PRep c s qs → s.components.items.length ≤ cap →
      (s.run c cap ps).2.components.items.length ≤ cap := by
  induction ps with
  | nil => intro s qs _ h; exact h
  | cons p ps ih =>
    intro s qs hr h
    obtain ⟨qs', hr', -⟩ := path_step (cap := cap) hr p
    exact ih _ qs' hr' (intern_capacity hr.comps h p)

/-- **C18** after any history, interning an absolute path returns a key exactly when the component
table can hold every component the path mentions and the key encoding can hold its normalized
component list; otherwise it panics for lack of keys. -/
theorem c18_succeeds_iff (c : KeyCfg) (cap : Nat) (ps : List Name) (rs : List PathRes) (s : PathInterner)
    (h : PathInterner.new.run c cap ps = (rs, s)) (p : Name) (hp : p.head? = some '/') :
    ((∃ k, (s.intern c cap p).1 = .key k) ↔
      (s.components.items ++ ['/'] :: mentioned p).toFinset.card ≤ cap ∧
      Fits c s.sequences.numItems (s.sequences.numItems + (1 + (normalize p).length))) ∧
    ((∀ k, (s.intern c cap p).1 ≠ .key k) → (s.intern c cap p).1 = .panicked .keySpace) := by
  obtain ⟨-, qs, hr, -⟩ := path_run (cap := cap) ps PathInterner.new [] (PRep.new c)
  have hcap := run_capacity (cap := cap) ps PathInterner.new [] (PRep.new c) (by simp [PathInterner.new, Interner.new])
  rw [h] at hr hcap
  simp only at hr hcap
  obtain ⟨rest, rfl⟩ : ∃ rest, p = '/' :: rest := by
    cases p with
    | nil => simp at hp
    | cons a l => simp at hp; exact ⟨l, by rw [hp]⟩
  have hrel' : isRelative ('/' :: rest) = false := rfl
  obtain ⟨qs', -, -, -, hrel, -, hpan, -⟩ := path_step (cap := cap) hr ('/' :: rest)
  refine ⟨?_, ?_⟩
  swap
  · intro hk
    cases hres : (s.intern c cap ('/' :: rest)).1 with
    | key k => exact absurd hres (hk k)
    | relative => rw [hrel] at hres; simp [hrel'] at hres
    | panicked e => rw [(hpan e hres).1]
  have hw := (walk_capacity (cap := cap) (pathComponents ('/' :: rest)) s.components s.sequences.entry
    hr.comps hcap).1
  rw [namesIn_abs] at hw
  rw [← hw]
  have hpc : pathComponents ('/' :: rest) = .rootDir :: (splitSlash rest).filterMap compOfPart := rfl
  have hent : s.sequences.entry =
    SeqEntry.mk ⟨s.sequences.concatenated, s.sequences.sequences⟩ s.sequences.concatenated.length := rfl
  rcases intern_ok_spec (cap := cap) hr.comps ['/'] with ⟨r, s1, hk, w1, p1, g1⟩ | hk
  · obtain ⟨o, comps', st', hwk, w2, p2, ho, hf⟩ := walk_spec (cap := cap) ((splitSlash rest).filterMap compOfPart)
      (no_root_in_parts _) s1 w1 s.sequences.concatenated s.sequences.sequences r [] [] (by simp [g1])
    have hwalk : walk cap s.components s.sequences.entry (pathComponents ('/' :: rest)) =
        (o, comps', ⟨⟨s.sequences.concatenated ++ r :: st', s.sequences.sequences⟩, s.sequences.concatenated.length⟩) := by
      rw [hpc, hent]
      simp only [walk, hk, SeqEntry.push]
      exact hwk
    rw [hwalk]
    rcases ho with rfl | rfl
    · have hnames := hf rfl
      rw [← normalize_abs] at hnames
      have hlen := congrArg List.length hnames
      simp only [List.length_map, List.length_cons] at hlen
      have hstep := step_spec hr.seqs (.entry ((r :: st').map EOp.push))
      have hsub : (SeqOp.entry ((r :: st').map EOp.push)).submitted = some (r :: st') := by
        simp only [SeqOp.submitted, stackRun_pushes, List.nil_append]
      have heq := entry_intern_eq_step c s.sequences (r :: st')
      have hint : s.intern c cap ('/' :: rest) =
          match (SeqEntry.mk ⟨s.sequences.concatenated ++ (r :: st'), s.sequences.sequences⟩
            s.sequences.concatenated.length).intern c with
          | (.ok k, seqs) => (.key k, ⟨comps', seqs⟩)
          | (.error p, seqs) => (.panicked p, ⟨comps', seqs⟩) := by
        unfold PathInterner.intern
        rw [if_neg (by simp [hrel']), hwalk]
        rfl
      have hfit := (hstep.2.2 (r :: st') hsub).1
      have e1 : (r :: st').length = 1 + (normalize ('/' :: rest)).length := by
        simp only [List.length_cons]; omega
      rw [e1] at hfit
      simp only [true_and]
      show _ ↔ Fits c s.sequences.concatenated.length _
      have : (∃ k, (s.intern c cap ('/' :: rest)).1 = .key k) ↔
          ∃ k, (s.sequences.step c (.entry ((r :: st').map EOp.push))).1 = .key k := by
        rw [hint, heq]
        rcases (SeqEntry.mk ⟨s.sequences.concatenated ++ (r :: st'), s.sequences.sequences⟩
            s.sequences.concatenated.length).intern c with ⟨er, seqs⟩
        cases er <;> simp
      rw [this, hfit]
      simp [SeqInterner.numItems]
    · have hint : (s.intern c cap ('/' :: rest)).1 = .panicked .keySpace := by
        unfold PathInterner.intern
        rw [if_neg (by simp [hrel']), hwalk]
      rw [hint]
      simp
  · have hint : (s.intern c cap ('/' :: rest)).1 = .panicked .keySpace := by
      unfold PathInterner.intern
      rw [if_neg (by simp [isRelative]), hpc]
      simp only [walk, hk]
    rw [hint, hpc]
    simp [walk, hk]

/-- A small interner for the examples: 4-bit lengths, room for many keys, three components. -/
example : ∃ k, ((PathInterner.new.run defaultCfg 3 [['/', 'a']]).2.intern defaultCfg 3 ['/', 'b', '/', '.', '.', '/', 'a']).1 =
    .key k := by
  refine ((c18_succeeds_iff defaultCfg 3 [['/', 'a']] _ _ rfl _ rfl).1).2 ?_
  decide
example : ((PathInterner.new.run defaultCfg 2 [['/', 'a']]).2.intern defaultCfg 2 ['/', 'b']).1 =
    .panicked .keySpace := by decide

/-! ## Recursive entries -/

variable {α : Type} [DecidableEq α]

/-- Some key handed out by the interner resolves to `q`. -/
def Known (c : KeyCfg) (s : SeqInterner α) (q : List α) : Prop :=
  ∃ k ∈ s.sequences, s.get c k = some q

theorem known_iff {c : KeyCfg} {s : SeqInterner α} {qs : List (List α)} (h : Rep c s qs) (q : List α) :
    Known c s q ↔ q ∈ qs := by
  have := keysOf_slice c qs h.short [] []
  simp only [List.length_nil, List.nil_append, List.append_nil] at this
  have hm : s.sequences.map (fun k => s.get c k) = qs.map some := by
    rw [h.keys]
    show (keysOf c 0 qs).map (fun k => slice s.concatenated (unpack c k)) = _
    rw [h.cat]; exact this
  constructor
  · rintro ⟨k, hk, hg⟩
    have : some q ∈ qs.map some := by
      rw [← hm]; exact List.mem_map.2 ⟨k, hk, hg⟩
    obtain ⟨q', hq', he⟩ := List.mem_map.1 this
    cases he
    exact hq'
  · intro hq
    have : some q ∈ s.sequences.map (fun k => s.get c k) := by
      rw [hm]; exact List.mem_map.2 ⟨q, hq, rfl⟩
    obtain ⟨k, hk, he⟩ := List.mem_map.1 this
    exact ⟨k, hk, he⟩

/-- **C19** after any history, interning (through a live entry, or directly) the sequence `q`
returns a key exactly when `q` is already known or the key encoding has room for it; otherwise
it panics for lack of keys. -/
theorem c19_succeeds_iff (c : KeyCfg) (ops : List (RecOp α)) (rs : List RecRes) (s : RecState α)
    (h : (RecState.new : RecState α).run c ops = (rs, s)) (hv : RecRes.invalid ∉ rs)
    (o : RecOp α) (q : List α) (hq : submittedBy ops o = some q) (ho : (s.step c o).1 ≠ .invalid) :
    ((∃ k, (s.step c o).1 = .key k) ↔
      Known c s.interner q ∨ Fits c s.interner.numItems (s.interner.numItems + q.length)) ∧
    ((∀ k, (s.step c o).1 ≠ .key k) → (s.step c o).1 = .panicked .keySpace) := by
  obtain ⟨qs, hrep, hlive, -⟩ := rec_invariant c ops (by rw [h]; exact hv)
  rw [h] at hrep hlive
  simp only at hrep hlive
  obtain ⟨-, -, hs⟩ := step_spec hrep (.intern q)
  obtain ⟨hs1, hs2⟩ := hs q rfl
  have hkey : ∀ buf, buf = q →
      ((∃ k s', s.interner.intern c buf = .ok (k, s')) ↔
        Known c s.interner q ∨ Fits c s.interner.numItems (s.interner.numItems + q.length)) ∧
      (∀ e, s.interner.intern c buf = .error e → e = .keySpace) := by
    rintro buf rfl
    rw [known_iff hrep]
    cases hi : s.interner.intern c buf with
    | ok r =>
      obtain ⟨k, s'⟩ := r
      simp only [SeqInterner.step, hi] at hs1
      refine ⟨?_, by simp⟩
      have := hs1.1 ⟨k, rfl⟩
      constructor
      · intro _
        rcases this with h | ⟨h, -⟩
        · exact .inr h
        · exact .inl h
      · intro _; exact ⟨k, s', rfl⟩
    | error e =>
      simp only [SeqInterner.step, hi] at hs1 hs2
      have h2 := hs2 (by simp)
      refine ⟨?_, fun e' he' => ?_⟩
      · constructor
        · rintro ⟨k, s', hk⟩; simp at hk
        · intro hk
          exfalso
          obtain ⟨k, hk'⟩ := hs1.2 (by
            rcases hk with hk | hk
            · exact .inr ⟨hk, _, rfl⟩
            · exact .inl hk)
          simp at hk'
      · cases he'
        simp at h2
        exact h2
  cases o with
  | entry => simp [submittedBy] at hq
  | push => simp [submittedBy] at hq
  | drop => simp [submittedBy] at hq
  | intern q' =>
    simp only [submittedBy, Option.some.injEq] at hq
    obtain ⟨k1, k2⟩ := hkey q' hq
    rw [← k1]
    cases hi : s.interner.intern c q' with
    | ok r => obtain ⟨k, s'⟩ := r; simp [RecState.step, hi]
    | error e => simp [RecState.step, hi, k2 e hi]
  | finish id =>
    simp only [submittedBy, Option.some.injEq] at hq
    cases hl : s.live id with
    | none => simp [RecState.step, hl] at ho
    | some buf =>
      obtain ⟨k1, k2⟩ := hkey buf (by rw [hlive id buf hl, hq])
      rw [← k1]
      cases hi : s.interner.intern c buf with
      | ok r => obtain ⟨k, s'⟩ := r; simp [RecState.step, hl, hi]
      | error e => simp [RecState.step, hl, hi, k2 e hi]

/-- **C19** opening, pushing to and dropping a live entry always succeeds, and the identity
returned by `entry()` is fresh. -/
theorem c19_total (c : KeyCfg) (s : RecState α) :
    (s.step c .entry).1 = .opened s.created ∧ (s.step c .entry).2.live s.created = some [] ∧
    (∀ id x buf, s.live id = some buf → (s.step c (.push id x)).1 = .unit ∧
      (s.step c (.push id x)).2.live id = some (buf ++ [x])) ∧
    (∀ id buf, s.live id = some buf → (s.step c (.drop id)).1 = .unit ∧
      (s.step c (.drop id)).2.live id = none) ∧
    (∀ id buf, s.live id = some buf → (s.step c (.finish id)).2.live id = none) := by
  refine ⟨by simp [RecState.step], ?_, ?_, ?_, ?_⟩
  · simp only [RecState.step]
    cases s.storage.getLast? <;> simp
  · intro id x buf h; simp [RecState.step, h]
  · intro id buf h; simp [RecState.step, h, RecState.recycle]
  · intro id buf h
    simp only [RecState.step, h]
    cases s.interner.intern c buf with
    | ok r => obtain ⟨k, s'⟩ := r; simp [RecState.recycle]
    | error e => simp [RecState.recycle]

example : ∃ k, (((RecState.new : RecState Nat).run defaultCfg [.entry, .push 0 1]).2.step defaultCfg
    (.finish 0)).1 = .key k :=
  ((c19_succeeds_iff defaultCfg [.entry, .push 0 1] _ _ rfl (by decide) (.finish 0) [1] rfl
    (by decide)).1).2 (.inr (by decide))

end Verif.Intern
