/-
C18: the usage statistics of a path interner, as reported by `PathInterner::{num_components, num_unique_components,
max_path_len}` (asylum/src/path.rs:292-305) and `EntityParser` (cpparser/src/lib.rs:173-191).
-/
import Verif.Intern.Path

set_option autoImplicit false
set_option linter.unusedVariables false
set_option linter.unusedSectionVars false
set_option linter.unusedSimpArgs false

namespace Verif.Intern

/-! ## Model -/

/-- asylum/src/path.rs:293-295 `num_components` -/
def PathInterner.numComponents (s : PathInterner) : Nat := s.sequences.numItems

/-- asylum/src/path.rs:298-300 `num_unique_components` -/
def PathInterner.numUniqueComponents (s : PathInterner) : Nat := s.components.len

/-- asylum/src/path.rs:303-305 `max_path_len` -/
def PathInterner.maxPathLen (c : KeyCfg) (s : PathInterner) : Option Nat := s.sequences.maxSequenceLen c

/-! ## Specification -/

/-- The distinct normalized paths that were interned in a history. -/
def internedPaths (ps : List Name) (rs : List PathRes) : Finset (List Name) :=
  (((ps.zip rs).filter fun x => x.2 matches .key _).map fun x => normalize x.1).toFinset

/-- The names that occur in the absolute paths of a history: the root, and the parts between slashes other than the empty one, `.`
and `..`. -/
def namesSeen (ps : List Name) : Finset Name :=
  ((ps.filter fun p => p.head? = some '/').flatMap fun p => ['/'] :: (partsOf p).filter fun n => n ≠ ['.', '.']).toFinset

/-! ## Proofs -/

theorem stored_paths (c : KeyCfg) (cap : Nat) (ps : List Name) (rs : List PathRes) (s : PathInterner)
    (h : PathInterner.new.run c cap ps = (rs, s)) :
    ∃ (qs : List (List Nat)) (f : List Nat → List Name), Rep c s.sequences qs ∧ internedPaths ps rs = qs.toFinset.image f ∧
      Set.InjOn f (qs.toFinset : Set (List Nat)) ∧ ∀ q ∈ qs, q.length = (f q).length + 1 := by
  obtain ⟨hlen, qs, hrep, -, -, hent, hinv⟩ := path_run (c := c) (cap := cap) ps _ _ (PRep.new c)
  rw [h] at hlen hrep hent hinv
  simp only at hlen hrep hent hinv
  have key : ∀ q ∈ qs, ∃ (j : Nat) (p : Name) (k : Nat), ps[j]? = some p ∧ rs[j]? = some (.key k) ∧
      q.map s.components.get = (['/'] :: normalize p).map some := by
    intro q hq
    rcases hinv q hq with hq | h; · cases hq
    exact h
  let f : List Nat → List Name := fun q => ((q.map s.components.get).map (fun o => o.getD [])).tail
  have hf : ∀ q ∈ qs, ∀ p : Name, q.map s.components.get = (['/'] :: normalize p).map some → f q = normalize p := by
    intro q _ p hm
    simp only [f, hm]
    simp
  refine ⟨qs, f, hrep.seqs, ?_, ?_, ?_⟩
  · ext ns
    simp only [internedPaths, List.mem_toFinset, Finset.mem_image, List.mem_map, List.mem_filter]
    constructor
    · rintro ⟨⟨p, r⟩, ⟨hz, hkey⟩, rfl⟩
      obtain ⟨j, hj⟩ := List.getElem?_of_mem hz
      rw [List.getElem?_zip_eq_some] at hj
      cases r with
      | key k =>
        obtain ⟨i, q, hi, hq, hm⟩ := (hent j p _ hj.1 hj.2).2.2 k rfl
        exact ⟨q, by simpa using List.mem_of_getElem? hq, hf q (List.mem_of_getElem? hq) p hm⟩
      | relative => simp at hkey
      | panicked e => simp at hkey
    · rintro ⟨q, hq, rfl⟩
      obtain ⟨j, p, k, hj, hk, hm⟩ := key q hq
      refine ⟨(p, .key k), ⟨?_, rfl⟩, (hf q hq p hm).symm⟩
      apply List.mem_of_getElem? (i := j)
      simp [List.getElem?_zip_eq_some, hj, hk]
  · intro q hq q' hq' heq
    simp only [Finset.mem_coe, List.mem_toFinset] at hq hq'
    obtain ⟨j, p, k, hj, hk, hm⟩ := key q hq
    obtain ⟨j', p', k', hj', hk', hm'⟩ := key q' hq'
    rw [hf q hq p hm, hf q' hq' p' hm'] at heq
    rw [heq] at hm
    exact map_get_inj hrep.comps hm hm'
  · intro q hq
    obtain ⟨j, p, k, hj, hk, hm⟩ := key q hq
    rw [hf q hq p hm]
    have := congrArg List.length hm
    simpa using this

/-- **C18, sizes.** For every history of interned paths: the total number of components is the sum of the lengths (root included) of
the distinct normalized paths interned, and the maximal path length is the largest of these lengths (nothing if no path was
interned). -/
theorem c18_sizes (c : KeyCfg) (cap : Nat) (ps : List Name) (rs : List PathRes) (s : PathInterner)
    (h : PathInterner.new.run c cap ps = (rs, s)) :
    s.numComponents = ∑ ns ∈ internedPaths ps rs, (ns.length + 1) ∧
    (∀ m, s.maxPathLen c = some m ↔
      (∃ ns ∈ internedPaths ps rs, ns.length + 1 = m) ∧ ∀ ns ∈ internedPaths ps rs, ns.length + 1 ≤ m) ∧
    (s.maxPathLen c = none ↔ internedPaths ps rs = ∅) := by
  obtain ⟨qs, f, hrep, hD, hinj, hlen⟩ := stored_paths c cap ps rs s h
  have hlens : s.sequences.sequences.map (fun k => (unpack c k).2 - (unpack c k).1) = qs.map List.length := by
    rw [hrep.keys]
    have hshort := hrep.short
    clear hD hinj hlen hrep
    have : ∀ off, (keysOf c off qs).map (fun k => (unpack c k).2 - (unpack c k).1) = qs.map List.length := by
      induction qs with
      | nil => intro off; rfl
      | cons q qs ih =>
        intro off
        simp only [keysOf, List.map_cons]
        rw [unpack_pack c off q.length (hshort q (by simp)), ih (fun q' h => hshort q' (by simp [h]))]
        simp
    exact this 0
  refine ⟨?_, ?_, ?_⟩
  · rw [hD, Finset.sum_image hinj, PathInterner.numComponents, SeqInterner.numItems, hrep.cat, List.length_flatten,
      ← List.sum_toFinset _ hrep.nodup]
    refine Finset.sum_congr rfl fun q hq => ?_
    exact hlen q (by simpa using hq)
  · intro m
    rw [PathInterner.maxPathLen, SeqInterner.maxSequenceLen, hlens, List.max?_eq_some_iff, hD]
    simp only [List.mem_map, Finset.mem_image, List.mem_toFinset, exists_exists_and_eq_and, forall_exists_index, and_imp,
      forall_apply_eq_imp_iff₂]
    constructor
    · rintro ⟨⟨q, hq, e⟩, h2⟩
      exact ⟨⟨q, hq, by rw [← hlen q hq, e]⟩, fun q hq => by rw [← hlen q hq]; exact h2 q hq⟩
    · rintro ⟨⟨q, hq, e⟩, h2⟩
      exact ⟨⟨q, hq, by rw [hlen q hq, e]⟩, fun q hq => by rw [hlen q hq]; exact h2 q hq⟩
  · rw [PathInterner.maxPathLen, SeqInterner.maxSequenceLen, hlens, List.max?_eq_none_iff, hD]
    simp

/-- The name of a component that is interned. -/
def compName : Comp → Option Name
  | .rootDir => some ['/']
  | .normal n => some n
  | _ => none

theorem intern_items {cap : Nat} {s s' : Interner Name} (w : s.WF) {x : Name} {k : Nat} (h : s.intern cap x = .ok (k, s')) :
    s'.WF ∧ ∀ y, y ∈ s'.items ↔ y ∈ s.items ∨ y = x := by
  rcases Interner.intern_spec (cap := cap) w x with ⟨hx, k', hk, hx'⟩ | ⟨hx, hc, s'', hk, hit, hwf⟩ | ⟨hx, hc, hk⟩
  · rw [h] at hk
    cases hk
    exact ⟨w, fun y => ⟨.inl, fun hy => hy.elim id fun e => e ▸ hx⟩⟩
  · rw [h] at hk
    cases hk
    exact ⟨hwf, fun y => by rw [hit]; simp⟩
  · rw [h] at hk; cases hk

theorem walk_items {cap : Nat} : ∀ (cs : List Comp) {comps comps' : Interner Name} {e e' : SeqEntry Nat} (w : comps.WF),
    walk cap comps e cs = (none, comps', e') →
    comps'.WF ∧ ∀ y, y ∈ comps'.items ↔ y ∈ comps.items ∨ y ∈ cs.filterMap compName := by
  intro cs
  induction cs with
  | nil =>
    intro comps comps' e e' w h
    simp only [walk, Prod.mk.injEq, true_and] at h
    obtain ⟨rfl, -⟩ := h
    exact ⟨w, by simp⟩
  | cons cp cs ih =>
    intro comps comps' e e' w h
    have name : ∀ x, (match comps.intern cap x with
        | .error p => ((some p, comps, e) : Option Panic × Interner Name × SeqEntry Nat)
        | .ok (k, comps') => walk cap comps' (e.push k) cs) = (none, comps', e') → compName cp = some x →
        comps'.WF ∧ ∀ y, y ∈ comps'.items ↔ y ∈ comps.items ∨ y ∈ (cp :: cs).filterMap compName := by
      intro x hx hn
      cases hi : comps.intern cap x with
      | error p => rw [hi] at hx; simp at hx
      | ok r =>
        obtain ⟨k, s1⟩ := r
        rw [hi] at hx
        obtain ⟨w1, h1⟩ := intern_items w hi
        obtain ⟨w2, h2⟩ := ih w1 hx
        refine ⟨w2, fun y => ?_⟩
        rw [h2, h1, List.filterMap_cons_some hn, List.mem_cons, or_assoc]
    cases cp with
    | rootDir => exact name ['/'] h rfl
    | normal n => exact name n h rfl
    | parentDir =>
      simp only [walk] at h
      rw [List.filterMap_cons_none rfl]
      split at h <;> exact ih w h
    | curDir =>
      rw [List.filterMap_cons_none rfl]
      exact ih w h

theorem parts_names (ps : List Name) : (ps.filterMap compOfPart).filterMap compName =
    (ps.filter fun n => n ≠ [] ∧ n ≠ ['.']).filter fun n => n ≠ ['.', '.'] := by
  induction ps with
  | nil => rfl
  | cons n ps ih =>
    by_cases h1 : n = []
    · subst h1; simp [compOfPart, ih]
    by_cases h2 : n = ['.']
    · subst h2; simp [compOfPart, ih]
    by_cases h3 : n = ['.', '.']
    · subst h3
      rw [List.filterMap_cons_some (show compOfPart ['.', '.'] = some .parentDir by simp [compOfPart]), List.filterMap_cons_none rfl, ih]
      simp
    · simp only [ne_eq, decide_not, Bool.decide_and] at ih
      simp [compOfPart, h1, h2, h3, compName, ih]

theorem namesSeen_cons (p : Name) (ps : List Name) (y : Name) :
    y ∈ namesSeen (p :: ps) ↔ (p.head? = some '/' ∧ (y = ['/'] ∨ y ∈ (partsOf p).filter fun n => n ≠ ['.', '.'])) ∨ y ∈ namesSeen ps := by
  unfold namesSeen
  by_cases hp : p.head? = some '/'
  · simp [hp, or_assoc]
  · simp [hp]

theorem unique_items {c : KeyCfg} {cap : Nat} : ∀ (ps : List Name) (s : PathInterner) (w : s.components.WF)
    (hno : ∀ e, PathRes.panicked e ∉ (s.run c cap ps).1),
    (s.run c cap ps).2.components.WF ∧
      ∀ y, y ∈ (s.run c cap ps).2.components.items ↔ y ∈ s.components.items ∨ y ∈ namesSeen ps := by
  intro ps
  induction ps with
  | nil => intro s w _; exact ⟨w, by simp [PathInterner.run, namesSeen]⟩
  | cons p ps ih =>
    intro s w hno
    have hr : s.run c cap (p :: ps) = ((s.intern c cap p).1 :: ((s.intern c cap p).2.run c cap ps).1,
      ((s.intern c cap p).2.run c cap ps).2) := rfl
    rw [hr] at hno ⊢
    have step : (s.intern c cap p).2.components.WF ∧ ∀ y, y ∈ (s.intern c cap p).2.components.items ↔
        y ∈ s.components.items ∨ (p.head? = some '/' ∧ (y = ['/'] ∨ y ∈ (partsOf p).filter fun n => n ≠ ['.', '.'])) := by
      by_cases hp : p.head? = some '/'
      · obtain ⟨rest, rfl⟩ : ∃ rest, p = '/' :: rest := by
          cases p with
          | nil => cases hp
          | cons a t => cases hp; exact ⟨t, rfl⟩
        have hn : ∀ e, (s.intern c cap ('/' :: rest)).1 ≠ .panicked e := fun e he => hno e (by simp [he])
        have hw : ∃ comps e, walk cap s.components s.sequences.entry (pathComponents ('/' :: rest)) = (none, comps, e) ∧
            (s.intern c cap ('/' :: rest)).2.components = comps := by
          unfold PathInterner.intern at hn ⊢
          rw [if_neg (by simp [isRelative])] at hn ⊢
          rcases hwk : walk cap s.components s.sequences.entry (pathComponents ('/' :: rest)) with ⟨o, comps, e⟩
          rw [hwk] at hn
          cases o with
          | some q => simp at hn
          | none =>
            refine ⟨comps, e, rfl, ?_⟩
            simp only
            rcases e.intern c with ⟨_ | _, _⟩ <;> rfl
        obtain ⟨comps, e, hwk, hc⟩ := hw
        obtain ⟨w', h'⟩ := walk_items _ w hwk
        rw [hc]
        refine ⟨w', fun y => ?_⟩
        rw [h']
        have e1 : pathComponents ('/' :: rest) = .rootDir :: (splitSlash rest).filterMap compOfPart := rfl
        have e2 : partsOf ('/' :: rest) = (splitSlash rest).filter fun n => n ≠ [] ∧ n ≠ ['.'] := by
          unfold partsOf
          have : splitSlash ('/' :: rest) = [] :: splitSlash rest := by simp [splitSlash]
          rw [this]; simp
        rw [e1, List.filterMap_cons_some (show compName .rootDir = some ['/'] from rfl), parts_names, ← e2]
        simp only [List.mem_cons, List.head?_cons, true_and]
      · rw [c18_relative_rejected c cap s p hp]
        exact ⟨w, fun y => by simp [hp]⟩
    obtain ⟨w1, h1⟩ := step
    obtain ⟨w2, h2⟩ := ih _ w1 fun e he => hno e (by simp [he])
    refine ⟨w2, fun y => ?_⟩
    rw [h2, h1, namesSeen_cons, or_assoc]

/-- **C18, unique components.** In a history where no key space is exhausted, the number of unique components is that of the distinct
names that occur in the absolute paths submitted, including those that a later `..` removes. -/
theorem c18_unique (c : KeyCfg) (cap : Nat) (ps : List Name) (rs : List PathRes) (s : PathInterner)
    (h : PathInterner.new.run c cap ps = (rs, s)) (hno : ∀ e, PathRes.panicked e ∉ rs) :
    s.numUniqueComponents = (namesSeen ps).card := by
  obtain ⟨w, hi⟩ := unique_items (c := c) (cap := cap) ps PathInterner.new Interner.WF.new (by rw [h]; exact hno)
  rw [h] at w hi
  rw [PathInterner.numUniqueComponents, Interner.len, ← List.toFinset_card_of_nodup w.nodup]
  congr 1
  ext y
  rw [List.mem_toFinset, hi]
  simp [PathInterner.new, Interner.new]

/-! ### Example -/

def statPaths : List Name := ["/usr/x/../b".toList, "/usr/b".toList, "rel".toList, "/".toList]

/-- Two distinct paths, of three components and of one; four names. -/
example : ∃ rs s, PathInterner.new.run defaultCfg 100 statPaths = (rs, s) ∧
    (s.numComponents = 4 ∧ s.maxPathLen defaultCfg = some 3 ∧ s.numUniqueComponents = 4) ∧
    s.numUniqueComponents = (namesSeen statPaths).card ∧
    s.numComponents = ∑ ns ∈ internedPaths statPaths rs, (ns.length + 1) := by
  have hrs : (PathInterner.new.run defaultCfg 100 statPaths).1 = [.key 3, .key 3, .relative, .key 769] := by decide
  have hs : (PathInterner.new.run defaultCfg 100 statPaths).2.numComponents = 4 ∧
      (PathInterner.new.run defaultCfg 100 statPaths).2.maxPathLen defaultCfg = some 3 ∧
      (PathInterner.new.run defaultCfg 100 statPaths).2.numUniqueComponents = 4 := by decide
  refine ⟨(PathInterner.new.run defaultCfg 100 statPaths).1, (PathInterner.new.run defaultCfg 100 statPaths).2, rfl, hs, ?_,
    (c18_sizes defaultCfg 100 statPaths _ _ rfl).1⟩
  refine c18_unique defaultCfg 100 statPaths (PathInterner.new.run defaultCfg 100 statPaths).1 _ rfl fun e he => ?_
  rw [hrs] at he
  simp at he

end Verif.Intern
