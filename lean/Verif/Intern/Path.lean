/-
Model of `asylum::path::{PathInterner, InternedPath}` (asylum/src/path.rs) and property C18.
Trusted: `std::path::Path::{is_relative, components}`, `PathBuf::push` (Unix behaviour) and `lasso::Rodeo`, which is
modelled by the same interner as C14.
-/
import Verif.Intern.Seq

set_option autoImplicit false
set_option linter.unusedSectionVars false
set_option linter.unusedSimpArgs false

namespace Verif.Intern

abbrev Name := List Char

/-! ## std::path on Unix -/

/-- `std::path::Component` (Unix: no prefixes) -/
inductive Comp where
  | rootDir
  | curDir
  | parentDir
  | normal (n : Name)
  deriving DecidableEq

/-- The parts of a string between slashes. -/
def splitSlash : Name → List Name
  | [] => [[]]
  | a :: t =>
    if a = '/' then [] :: splitSlash t
    else match splitSlash t with
      | [] => [[a]]
      | n :: ns => (a :: n) :: ns

/-- One non-initial part of a path: empty parts and `.` are skipped. -/
def compOfPart (n : Name) : Option Comp :=
  if n = [] then none
  else if n = ['.'] then none
  else if n = ['.', '.'] then some .parentDir
  else some (.normal n)

/-- `Path::is_relative` on Unix -/
def isRelative : Name → Bool
  | '/' :: _ => false
  | _ => true

/-- `Path::components` on Unix: a leading `/` gives `RootDir`, a leading `.` gives `CurDir` only in relative paths. -/
def pathComponents : Name → List Comp
  | '/' :: rest => .rootDir :: (splitSlash rest).filterMap compOfPart
  | p => (if (splitSlash p).head? = some ['.'] then [.curDir] else []) ++ (splitSlash p).filterMap compOfPart

/-- `PathBuf::push(component)` on Unix -/
def pushPath (buf comp : Name) : Name :=
  if !isRelative comp then comp
  else if buf = [] ∨ buf.getLast? = some '/' then buf ++ comp
  else buf ++ '/' :: comp

/-! ## The interner -/

/-- asylum/src/path.rs:207-217 `PathInterner { components, sequences }` -/
structure PathInterner where
  components : Interner Name
  sequences : SeqInterner Nat

/-- asylum/src/path.rs:223-228 `PathInterner::new` -/
def PathInterner.new : PathInterner := ⟨Interner.new, SeqInterner.new⟩

/-- asylum/src/path.rs:253-271: the loop over the path's components. Returns the panic if a component key could not be
allocated (`Rodeo::get_or_intern`), together with the state reached. -/
def walk (cap : Nat) (comps : Interner Name) (e : SeqEntry Nat) : List Comp → Option Panic × Interner Name × SeqEntry Nat
  | [] => (none, comps, e)
  | c :: cs =>
    match c with
    | .rootDir =>
      match comps.intern cap ['/'] with
      | .error p => (some p, comps, e)
      | .ok (k, comps') => walk cap comps' (e.push k) cs
    | .normal n =>
      match comps.intern cap n with
      | .error p => (some p, comps, e)
      | .ok (k, comps') => walk cap comps' (e.push k) cs
    | .parentDir => if e.len > 1 then walk cap comps e.pop.2 cs else walk cap comps e cs
    | .curDir => walk cap comps e cs

/-- Result of interning a path. -/
inductive PathRes where
  | key (k : Nat)
  /-- `Err(PathError::RelativePath)` -/
  | relative
  | panicked (p : Panic)
  deriving DecidableEq

/-- asylum/src/path.rs:238-275 `PathInterner::intern`. When interning a component panics, unwinding drops the open
sequence entry. -/
def PathInterner.intern (c : KeyCfg) (cap : Nat) (s : PathInterner) (path : Name) : PathRes × PathInterner :=
  if isRelative path then (.relative, s)
  else
    match walk cap s.components s.sequences.entry (pathComponents path) with
    | (some p, comps, e) => (.panicked p, ⟨comps, e.drop⟩)
    | (none, comps, e) =>
      match e.intern c with
      | (.ok k, seqs) => (.key k, ⟨comps, seqs⟩)
      | (.error p, seqs) => (.panicked p, ⟨comps, seqs⟩)

/-- asylum/src/path.rs:120-134 `get(key).components()` (their values), `none` = panic -/
def PathInterner.componentsOf (c : KeyCfg) (s : PathInterner) (k : Nat) : Option (List Name) :=
  match s.sequences.get c k with
  | none => none
  | some ks => ks.mapM s.components.get

/-- asylum/src/path.rs:137-143 `to_boxed_path` -/
def boxedPath (comps : List Name) : Name := comps.foldl pushPath []

/-- asylum/src/path.rs:287-289 `PathInterner::len` -/
def PathInterner.len (s : PathInterner) : Nat := s.sequences.len

/-- A history of `intern` calls. -/
def PathInterner.run (c : KeyCfg) (cap : Nat) (s : PathInterner) : List Name → List PathRes × PathInterner
  | [] => ([], s)
  | p :: ps =>
    let (r, s') := s.intern c cap p
    let (rs, s'') := PathInterner.run c cap s' ps
    (r :: rs, s'')

/-! ## Specification: lexical path normalization -/

/-- Directory names along a path string: the parts between slashes, without empty parts and `.`. -/
def partsOf (path : Name) : List Name := (splitSlash path).filter fun n => n ≠ [] ∧ n ≠ ['.']

/-- Lexical resolution of `..` below the root: forget the last name, if any. -/
def resolveDots (parts : List Name) : List Name :=
  parts.foldl (fun acc n => if n = ['.', '.'] then acc.dropLast else acc ++ [n]) []

/-- The normalized names below the root of an absolute path string. -/
def normalize (path : Name) : List Name := resolveDots (partsOf path)

/-! ## Proofs -/

theorem stackRun_pushes (q : List Nat) : ∀ st : List Nat, (stackRun st (q.map EOp.push)).2 = st ++ q := by
  induction q with
  | nil => intro st; simp [stackRun]
  | cons x q ih => intro st; simp [stackRun, stackStep, ih]

/-- Interning through an entry that holds exactly `q` is a transaction submitting `q`. -/
theorem entry_intern_eq_step (c : KeyCfg) (s : SeqInterner Nat) (q : List Nat) :
    s.step c (.entry (q.map EOp.push)) =
      match (SeqEntry.mk ⟨s.concatenated ++ q, s.sequences⟩ s.concatenated.length).intern c with
      | (.ok k, s') => (.key k, s')
      | (.error p, s') => (.panicked p, s') := by
  have hrun := SeqEntry.run_spec (q.map EOp.push) s.concatenated [] s.sequences
  simp only [List.append_nil] at hrun
  have he : s.entry = SeqEntry.mk ⟨s.concatenated, s.sequences⟩ s.concatenated.length := rfl
  rw [← he, stackRun_pushes] at hrun
  simp only [SeqInterner.step, hrun, List.nil_append]
  rcases (SeqEntry.mk ⟨s.concatenated ++ q, s.sequences⟩ s.concatenated.length).intern c with ⟨_ | _, _⟩ <;> rfl

/-- What a component does to the names below the root. -/
def compStep (names : List Name) : Comp → List Name
  | .normal n => names ++ [n]
  | .parentDir => names.dropLast
  | _ => names

theorem interner_get_mono {s s' : Interner Name} (h : s.items <+: s'.items) {k : Nat} {x : Name}
    (hk : s.get k = some x) : s'.get k = some x := by
  obtain ⟨t, ht⟩ := h
  unfold Interner.get at *
  rw [← ht, List.getElem?_append_left, hk]
  by_contra hcon
  rw [List.getElem?_eq_none (by omega)] at hk; cases hk

theorem map_get_mono {s s' : Interner Name} (h : s.items <+: s'.items) {q : List Nat} {ns : List Name}
    (hk : q.map s.get = ns.map some) : q.map s'.get = ns.map some := by
  induction q generalizing ns with
  | nil => cases ns <;> simp_all
  | cons k q ih =>
    cases ns with
    | nil => simp at hk
    | cons n ns =>
      simp only [List.map_cons, List.cons.injEq] at hk ⊢
      exact ⟨interner_get_mono h hk.1, ih hk.2⟩

theorem map_get_inj {s : Interner Name} (w : s.WF) {q q' : List Nat} {ns : List Name}
    (h : q.map s.get = ns.map some) (h' : q'.map s.get = ns.map some) : q = q' := by
  induction q generalizing q' ns with
  | nil => cases ns <;> cases q' <;> simp_all
  | cons k q ih =>
    cases ns with
    | nil => simp at h
    | cons n ns =>
      cases q' with
      | nil => simp at h'
      | cons k' q' =>
        simp only [List.map_cons, List.cons.injEq] at h h' ⊢
        refine ⟨?_, ih h.2 h'.2⟩
        have hb : k < s.items.length := by
          by_contra hcon; have := h.1; unfold Interner.get at this
          rw [List.getElem?_eq_none (by omega)] at this; cases this
        exact (List.getElem?_inj hb w.nodup).1 (h.1.trans h'.1.symm)

theorem intern_ok_spec {cap : Nat} {s : Interner Name} (w : s.WF) (x : Name) :
    (∃ k s', s.intern cap x = .ok (k, s') ∧ s'.WF ∧ s.items <+: s'.items ∧ s'.get k = some x) ∨
    s.intern cap x = .error .keySpace := by
  rcases Interner.intern_spec (cap := cap) w x with ⟨hx, k, hk, hx'⟩ | ⟨hx, hc, s'', hk, hit, hwf⟩ | ⟨hx, hc, hk⟩
  · exact Or.inl ⟨k, s, hk, w, List.prefix_rfl, hx'⟩
  · exact Or.inl ⟨_, s'', hk, hwf, by rw [hit]; exact List.prefix_append _ _, by simp [Interner.get, hit]⟩
  · exact Or.inr hk

/-- The loop, once the root has been pushed. -/
theorem walk_spec {cap : Nat} (cs : List Comp) (hcs : Comp.rootDir ∉ cs) :
    ∀ (comps : Interner Name) (_w : comps.WF) (pre : List Nat) (keys : List Nat) (r : Nat) (st : List Nat) (names : List Name)
      (_ : (r :: st).map comps.get = (['/'] :: names).map some),
      ∃ o comps' st', walk cap comps ⟨⟨pre ++ r :: st, keys⟩, pre.length⟩ cs =
          (o, comps', ⟨⟨pre ++ r :: st', keys⟩, pre.length⟩) ∧
        comps'.WF ∧ comps.items <+: comps'.items ∧ (o = none ∨ o = some .keySpace) ∧
        (o = none → (r :: st').map comps'.get = (['/'] :: cs.foldl compStep names).map some) := by
  induction cs with
  | nil =>
    intro comps w pre keys r st names h
    exact ⟨none, comps, st, rfl, w, List.prefix_rfl, Or.inl rfl, fun _ => h⟩
  | cons c cs ih =>
    intro comps w pre keys r st names h
    have hcs' : Comp.rootDir ∉ cs := fun hh => hcs (by simp [hh])
    cases c with
    | rootDir => simp at hcs
    | curDir =>
      simpa [walk, compStep] using ih hcs' comps w pre keys r st names h
    | parentDir =>
      have hlen : st.length = names.length := by
        have := congrArg List.length h; simpa using this
      by_cases hst : st = []
      · subst hst
        have hn : names = [] := by simpa using hlen.symm
        subst hn
        have := ih hcs' comps w pre keys r [] [] h
        simpa [walk, compStep, SeqEntry.len] using this
      · have hpos := List.length_pos_iff.2 hst
        have hl : (SeqEntry.mk (α := Nat) ⟨pre ++ r :: st, keys⟩ pre.length).len > 1 := by
          simp [SeqEntry.len]; omega
        have hpop : (SeqEntry.mk (α := Nat) ⟨pre ++ r :: st, keys⟩ pre.length).pop.2 =
            ⟨⟨pre ++ r :: st.dropLast, keys⟩, pre.length⟩ := by
          unfold SeqEntry.pop
          rw [if_pos (by simp)]
          simp only
          rw [List.dropLast_append_of_ne_nil (by simp), List.dropLast_cons_of_ne_nil hst]
        have hdl : (r :: st.dropLast).map comps.get = (['/'] :: names.dropLast).map some := by
          simp only [List.map_cons, List.cons.injEq] at h ⊢
          refine ⟨h.1, ?_⟩
          rw [List.map_dropLast, List.map_dropLast, h.2]
        obtain ⟨o, comps', st', hw, rest⟩ := ih hcs' comps w pre keys r st.dropLast names.dropLast hdl
        refine ⟨o, comps', st', ?_, ?_⟩
        · simp only [walk]
          rw [if_pos hl, hpop, hw]
        · simpa [compStep] using rest
    | normal n =>
      rcases intern_ok_spec (cap := cap) w n with ⟨k, s', hk, w', hp, hg⟩ | hk
      · have h' : (r :: (st ++ [k])).map s'.get = (['/'] :: (names ++ [n])).map some := by
          have := map_get_mono hp h
          simp only [List.map_cons, List.map_append, List.map_nil, List.cons.injEq] at this ⊢
          exact ⟨this.1, by rw [this.2, hg]⟩
        obtain ⟨o, comps', st', hw, w2, p2, ho, hf⟩ := ih hcs' s' w' pre keys r (st ++ [k]) (names ++ [n]) h'
        refine ⟨o, comps', st', ?_, w2, hp.trans p2, ho, ?_⟩
        · simp only [walk, hk, SeqEntry.push]
          have : pre ++ r :: st ++ [k] = pre ++ r :: (st ++ [k]) := by simp
          rw [this, hw]
        · simpa [compStep] using hf
      · refine ⟨some .keySpace, comps, st, by simp [walk, hk], w, List.prefix_rfl, Or.inr rfl, by simp⟩

theorem no_root_in_parts (ps : List Name) : Comp.rootDir ∉ ps.filterMap compOfPart := by
  intro h
  obtain ⟨n, -, hn⟩ := List.mem_filterMap.1 h
  unfold compOfPart at hn
  split at hn
  · cases hn
  split at hn
  · cases hn
  split at hn <;> cases hn

theorem foldl_compStep (ps : List Name) : ∀ names : List Name,
    (ps.filterMap compOfPart).foldl compStep names =
    (ps.filter fun n => n ≠ [] ∧ n ≠ ['.']).foldl
      (fun acc n => if n = ['.', '.'] then acc.dropLast else acc ++ [n]) names := by
  induction ps with
  | nil => intro names; rfl
  | cons n ps ih =>
    intro names
    by_cases h1 : n = []
    · subst h1; simp [compOfPart, ih]
    by_cases h2 : n = ['.']
    · subst h2; simp [compOfPart, ih]
    by_cases h3 : n = ['.', '.']
    · subst h3; simp [compOfPart, compStep, ih]
    · simp [compOfPart, h1, h2, h3, compStep, ih]

theorem normalize_abs (rest : Name) :
    normalize ('/' :: rest) = ((splitSlash rest).filterMap compOfPart).foldl compStep [] := by
  rw [foldl_compStep]
  unfold normalize resolveDots partsOf
  have : splitSlash ('/' :: rest) = [] :: splitSlash rest := by simp [splitSlash]
  rw [this]
  simp

/-- Invariant of the path interner. -/
structure PRep (c : KeyCfg) (s : PathInterner) (qs : List (List Nat)) : Prop where
  comps : s.components.WF
  seqs : Rep c s.sequences qs

/-- What one `intern` call does. -/
theorem path_step {c : KeyCfg} {cap : Nat} {s : PathInterner} {qs : List (List Nat)} (h : PRep c s qs) (p : Name) :
    ∃ qs', PRep c (s.intern c cap p).2 qs' ∧ qs <+: qs' ∧
      s.components.items <+: (s.intern c cap p).2.components.items ∧
      ((s.intern c cap p).1 = .relative ↔ isRelative p = true) ∧
      (isRelative p = true → (s.intern c cap p).2 = s) ∧
      (∀ e, (s.intern c cap p).1 = .panicked e → e = .keySpace ∧ (s.intern c cap p).2.sequences = s.sequences) ∧
      (∀ k, (s.intern c cap p).1 = .key k → ∃ (i : Nat) (q : List Nat),
        (s.intern c cap p).2.sequences.sequences[i]? = some k ∧ qs'[i]? = some q ∧
        q.map (s.intern c cap p).2.components.get = (['/'] :: normalize p).map some ∧
        ∀ y, y ∈ qs' ↔ y ∈ qs ∨ y = q) ∧
      ((∀ k, (s.intern c cap p).1 ≠ .key k) → qs' = qs) := by
  by_cases hrel : isRelative p = true
  · have : s.intern c cap p = (.relative, s) := by simp [PathInterner.intern, hrel]
    rw [this]
    exact ⟨qs, h, List.prefix_rfl, List.prefix_rfl, by simp [hrel], fun _ => rfl, by simp, by simp, fun _ => rfl⟩
  · -- absolute path
    obtain ⟨rest, rfl⟩ : ∃ rest, p = '/' :: rest := by
      unfold isRelative at hrel
      split at hrel
      · exact ⟨_, rfl⟩
      · simp at hrel
    have hpc : pathComponents ('/' :: rest) = .rootDir :: (splitSlash rest).filterMap compOfPart := rfl
    have hent : s.sequences.entry =
      SeqEntry.mk ⟨s.sequences.concatenated, s.sequences.sequences⟩ s.sequences.concatenated.length := rfl
    rcases intern_ok_spec (cap := cap) h.comps ['/'] with ⟨r, s1, hk, w1, p1, g1⟩ | hk
    · obtain ⟨o, comps', st', hw, w2, p2, ho, hf⟩ := walk_spec (cap := cap) ((splitSlash rest).filterMap compOfPart)
        (no_root_in_parts _) s1 w1 s.sequences.concatenated s.sequences.sequences r [] [] (by simp [g1])
      have hwalk : walk cap s.components s.sequences.entry (pathComponents ('/' :: rest)) =
          (o, comps', ⟨⟨s.sequences.concatenated ++ r :: st', s.sequences.sequences⟩, s.sequences.concatenated.length⟩) := by
        rw [hpc, hent]
        simp only [walk, hk, SeqEntry.push]
        exact hw
      have hdrop : (SeqEntry.mk (α := Nat) ⟨s.sequences.concatenated ++ r :: st', s.sequences.sequences⟩
          s.sequences.concatenated.length).drop = s.sequences := by
        simp [SeqEntry.drop]
      have hrel' : isRelative ('/' :: rest) = false := rfl
      rcases ho with rfl | rfl
      · -- no component exhaustion
        have hnames := hf rfl
        rw [← normalize_abs] at hnames
        have hstep := step_spec h.seqs (.entry ((r :: st').map EOp.push))
        have hsub : (SeqOp.entry ((r :: st').map EOp.push)).submitted = some (r :: st') := by
          simp only [SeqOp.submitted, stackRun_pushes, List.nil_append]
        have heq := entry_intern_eq_step c s.sequences (r :: st')
        have hint : s.intern c cap ('/' :: rest) =
            match (SeqEntry.mk ⟨s.sequences.concatenated ++ (r :: st'), s.sequences.sequences⟩
              s.sequences.concatenated.length).intern c with
            | (.ok k, seqs) => (.key k, ⟨comps', seqs⟩)
            | (.error p, seqs) => (.panicked p, ⟨comps', seqs⟩) := by
          unfold PathInterner.intern
          rw [if_neg (by simp [hrel']), hwalk]
        rcases hres : (SeqEntry.mk ⟨s.sequences.concatenated ++ (r :: st'), s.sequences.sequences⟩
              s.sequences.concatenated.length).intern c with ⟨er, seqs⟩
        rw [hres] at heq hint
        cases er with
        | ok k =>
          simp only at heq hint
          rw [heq] at hstep
          obtain ⟨⟨qs', hrep, hpre, hkey, -⟩, -, -⟩ := hstep
          rw [hint]
          obtain ⟨⟨i, hi, hq⟩, hmem⟩ := hkey (r :: st') k hsub rfl
          refine ⟨qs', ⟨w2, hrep⟩, hpre, p1.trans p2, by simp [hrel'], by simp [hrel'], by simp, ?_, by simp⟩
          intro k' hk'
          simp at hk'; subst hk'
          exact ⟨i, r :: st', hi, hq, hnames, hmem⟩
        | error e =>
          simp only at heq hint
          have hpan := (hstep.2.2 (r :: st') hsub).2 (by rw [heq]; simp)
          rw [heq] at hpan
          simp only [Prod.mk.injEq, SeqRes.panicked.injEq] at hpan
          obtain ⟨rfl, rfl⟩ := hpan
          rw [hint]
          exact ⟨qs, ⟨w2, h.seqs⟩, List.prefix_rfl, p1.trans p2, by simp [hrel'], by simp [hrel'],
            fun e he => by simp at he; subst he; simp, by simp, fun _ => rfl⟩
      · have hint : s.intern c cap ('/' :: rest) = (.panicked .keySpace, ⟨comps', s.sequences⟩) := by
          unfold PathInterner.intern
          rw [if_neg (by simp [hrel']), hwalk]
          simp only [hdrop]
        rw [hint]
        exact ⟨qs, ⟨w2, h.seqs⟩, List.prefix_rfl, p1.trans p2, by simp [hrel'], by simp [hrel'],
            fun e he => by simp at he; subst he; simp, by simp, fun _ => rfl⟩
    · have hint : s.intern c cap ('/' :: rest) = (.panicked .keySpace, s) := by
        unfold PathInterner.intern
        rw [if_neg (by simp [isRelative]), hpc]
        simp only [walk, hk, SeqInterner.entry, SeqEntry.drop, List.take_length]
      rw [hint]
      exact ⟨qs, h, List.prefix_rfl, List.prefix_rfl, by simp [isRelative], by simp [isRelative],
            fun e he => by simp at he; subst he; simp, by simp, fun _ => rfl⟩

theorem path_run {c : KeyCfg} {cap : Nat} (ps : List Name) :
    ∀ (s : PathInterner) (qs : List (List Nat)), PRep c s qs →
      (s.run c cap ps).1.length = ps.length ∧
      ∃ qs', PRep c (s.run c cap ps).2 qs' ∧ qs <+: qs' ∧
        s.components.items <+: (s.run c cap ps).2.components.items ∧
        (∀ (j : Nat) (p : Name) (r : PathRes), ps[j]? = some p → (s.run c cap ps).1[j]? = some r →
          (r = .relative ↔ isRelative p = true) ∧ (∀ e, r = .panicked e → e = .keySpace) ∧
          ∀ k, r = .key k → ∃ (i : Nat) (q : List Nat),
            (s.run c cap ps).2.sequences.sequences[i]? = some k ∧ qs'[i]? = some q ∧
            q.map (s.run c cap ps).2.components.get = (['/'] :: normalize p).map some) ∧
        (∀ q ∈ qs', q ∈ qs ∨ ∃ (j : Nat) (p : Name) (k : Nat), ps[j]? = some p ∧
            (s.run c cap ps).1[j]? = some (.key k) ∧
            q.map (s.run c cap ps).2.components.get = (['/'] :: normalize p).map some) := by
  induction ps with
  | nil =>
    intro s qs h
    exact ⟨rfl, qs, h, List.prefix_rfl, List.prefix_rfl, by simp, fun q hq => Or.inl hq⟩
  | cons p ps ih =>
    intro s qs h
    obtain ⟨qs1, h1, pre1, c1, rel1, -, pan1, key1, no1⟩ := path_step (cap := cap) h p
    obtain ⟨len2, qs2, h2, pre2, c2, ent2, inv2⟩ := ih _ _ h1
    have hr : s.run c cap (p :: ps) = ((s.intern c cap p).1 :: ((s.intern c cap p).2.run c cap ps).1,
      ((s.intern c cap p).2.run c cap ps).2) := rfl
    rw [hr]
    refine ⟨by simp [len2], qs2, h2, pre1.trans pre2, c1.trans c2, ?_, ?_⟩
    · intro j p' r hp hrr
      cases j with
      | succ j => exact ent2 j p' r (by simpa using hp) (by simpa using hrr)
      | zero =>
        simp only [List.getElem?_cons_zero, Option.some.injEq] at hp hrr
        subst hp; subst hrr
        refine ⟨rel1, fun e he => (pan1 e he).1, ?_⟩
        intro k hk
        obtain ⟨i, q, hi, hq, hm, -⟩ := key1 k hk
        refine ⟨i, q, ?_, ?_, map_get_mono c2 hm⟩
        · obtain ⟨t, ht⟩ := pre2
          rw [h1.seqs.keys] at hi
          simp only [h2.seqs.keys, ← ht, keysOf_append]
          rw [List.getElem?_append_left, hi]
          by_contra hcon
          rw [List.getElem?_eq_none (by omega)] at hi; cases hi
        · obtain ⟨t, ht⟩ := pre2
          rw [← ht, List.getElem?_append_left, hq]
          by_contra hcon
          rw [List.getElem?_eq_none (by omega)] at hq; cases hq
    · intro q hq
      rcases inv2 q hq with hq | ⟨j, p', k, hj, hk, hm⟩
      · by_cases hk : ∃ k, (s.intern c cap p).1 = .key k
        · obtain ⟨k, hk⟩ := hk
          obtain ⟨i, q', hi, hq', hm, hmem⟩ := key1 k hk
          rcases (hmem q).1 hq with hq | rfl
          · exact Or.inl hq
          · exact Or.inr ⟨0, p, k, rfl, by simp [hk], map_get_mono c2 hm⟩
        · rw [no1 (fun k h' => hk ⟨k, h'⟩)] at hq
          exact Or.inl hq
      · exact Or.inr ⟨j + 1, p', k, by simpa using hj, by simpa using hk, hm⟩

theorem PRep.new (c : KeyCfg) : PRep c PathInterner.new [] := ⟨Interner.WF.new, Rep.new c⟩

theorem mapM_get_of_map {s : Interner Name} {q : List Nat} {ns : List Name} (h : q.map s.get = ns.map some) :
    q.mapM s.get = some ns := by
  induction q generalizing ns with
  | nil => cases ns <;> simp_all
  | cons k q ih =>
    cases ns with
    | nil => simp at h
    | cons n ns =>
      simp only [List.map_cons, List.cons.injEq] at h
      simp [List.mapM_cons, h.1, ih h.2]

/-- **C18, components.** For every history of interned path strings: a path is rejected as relative iff it does not
start with `/`; every key handed out resolves, at the end of the history, to the root followed by the lexically
normalized names; the only panic is key space exhaustion. -/
theorem c18_components (c : KeyCfg) (cap : Nat) (ps : List Name) (rs : List PathRes) (s : PathInterner)
    (h : PathInterner.new.run c cap ps = (rs, s)) (j : Nat) (p : Name) (r : PathRes)
    (hp : ps[j]? = some p) (hr : rs[j]? = some r) :
    (r = .relative ↔ p.head? ≠ some '/') ∧
    (∀ e, r = .panicked e → e = .keySpace) ∧
    (∀ k, r = .key k → s.componentsOf c k = some (['/'] :: normalize p)) := by
  obtain ⟨-, qs, hrep, -, -, hent, -⟩ := path_run (c := c) (cap := cap) ps _ _ (PRep.new c)
  rw [h] at hrep hent
  obtain ⟨h1, h2, h3⟩ := hent j p r hp hr
  refine ⟨?_, h2, ?_⟩
  · rw [h1]
    unfold isRelative
    split
    · simp
    · rename_i hno
      cases p with
      | nil => simp
      | cons a t =>
        simp only [List.head?_cons, ne_eq, Option.some.injEq, true_iff]
        rintro rfl
        exact hno t rfl
  · intro k hk
    obtain ⟨i, q, hi, hq, hm⟩ := h3 k hk
    have hsl := keysOf_slice c qs hrep.seqs.short [] []
    simp only [List.nil_append, List.append_nil, List.length_nil] at hsl
    have hget : s.sequences.get c k = some q := by
      have h2 := congrArg (fun l => l[i]?) hsl
      have hkeys := hrep.seqs.keys
      have hcat := hrep.seqs.cat
      simp only at hi hkeys hcat
      rw [hkeys] at hi
      unfold SeqInterner.get
      rw [hcat]
      simpa [hi, hq] using h2
    unfold PathInterner.componentsOf
    rw [hget]
    exact mapM_get_of_map hm

/-- **C18, key equality.** Two keys handed out anywhere in a history are equal iff the normalized paths are equal. -/
theorem c18_keys_iff (c : KeyCfg) (cap : Nat) (ps : List Name) (rs : List PathRes) (s : PathInterner)
    (h : PathInterner.new.run c cap ps = (rs, s)) (i j : Nat) (p q : Name) (k l : Nat)
    (hp : ps[i]? = some p) (hk : rs[i]? = some (.key k)) (hq : ps[j]? = some q) (hl : rs[j]? = some (.key l)) :
    k = l ↔ normalize p = normalize q := by
  obtain ⟨-, qs, hrep, -, -, hent, -⟩ := path_run (c := c) (cap := cap) ps _ _ (PRep.new c)
  rw [h] at hrep hent
  obtain ⟨a, qa, ha, hqa, hma⟩ := (hent i p _ hp hk).2.2 k rfl
  obtain ⟨b, qb, hb, hqb, hmb⟩ := (hent j q _ hq hl).2.2 l rfl
  have hkeys := hrep.seqs.keys
  simp only at ha hb hkeys hma hmb
  rw [hkeys] at ha hb
  have hw := hrep.comps
  simp only at hw
  rw [keysOf_nodup c qs hrep.seqs.short hrep.seqs.nodup [] a b k l qa qb ha hb hqa hqb]
  constructor
  · rintro rfl
    rw [hma] at hmb
    have := (List.map_injective_iff.2 (Option.some_injective _)) hmb
    simpa using this
  · intro hn
    rw [hn] at hma
    exact map_get_inj hw hma hmb

/-- **C18, rejection.** Interning a path that does not start with `/` modifies nothing. -/
theorem c18_relative_rejected (c : KeyCfg) (cap : Nat) (s : PathInterner) (p : Name) (h : p.head? ≠ some '/') :
    s.intern c cap p = (.relative, s) := by
  have : isRelative p = true := by
    unfold isRelative
    split
    · simp at h
    · rfl
  simp [PathInterner.intern, this]

/-- **C18, count.** `len` is the number of distinct normalized paths interned. -/
theorem c18_len (c : KeyCfg) (cap : Nat) (ps : List Name) (rs : List PathRes) (s : PathInterner)
    (h : PathInterner.new.run c cap ps = (rs, s)) :
    s.len = (((ps.zip rs).filter fun x => x.2 matches .key _).map fun x => normalize x.1).toFinset.card := by
  obtain ⟨hlen, qs, hrep, -, -, hent, hinv⟩ := path_run (c := c) (cap := cap) ps _ _ (PRep.new c)
  rw [h] at hlen hrep hent hinv
  simp only at hlen hrep hent hinv
  have hl : s.len = qs.length := by
    unfold PathInterner.len SeqInterner.len
    rw [hrep.seqs.keys, keysOf_length]
  rw [hl, ← List.toFinset_card_of_nodup hrep.seqs.nodup]
  -- the bijection: a stored key sequence ↦ the names below the root
  have key : ∀ q ∈ qs, ∃ (j : Nat) (p : Name) (k : Nat), ps[j]? = some p ∧ rs[j]? = some (.key k) ∧
      q.map s.components.get = (['/'] :: normalize p).map some := by
    intro q hq
    rcases hinv q hq with hq | h; · cases hq
    exact h
  let f : List Nat → List Name := fun q => ((q.map s.components.get).map (fun o => o.getD [])).tail
  have hf : ∀ q ∈ qs, ∀ p : Name, q.map s.components.get = (['/'] :: normalize p).map some → f q = normalize p := by
    intro q _ p hm
    simp only [f, hm]
    simp
  apply Finset.card_bij (fun q _ => f q)
  · intro q hq
    simp only [List.mem_toFinset] at hq ⊢
    obtain ⟨j, p, k, hj, hk, hm⟩ := key q hq
    rw [hf q hq p hm]
    simp only [List.mem_map, List.mem_filter]
    refine ⟨(p, .key k), ⟨?_, rfl⟩, rfl⟩
    apply List.mem_of_getElem? (i := j)
    simp [List.getElem?_zip_eq_some, hj, hk]
  · intro q hq q' hq' heq
    simp only [List.mem_toFinset] at hq hq'
    obtain ⟨j, p, k, hj, hk, hm⟩ := key q hq
    obtain ⟨j', p', k', hj', hk', hm'⟩ := key q' hq'
    rw [hf q hq p hm, hf q' hq' p' hm'] at heq
    rw [heq] at hm
    exact map_get_inj hrep.comps hm hm'
  · intro ns hns
    simp only [List.mem_toFinset, List.mem_map, List.mem_filter] at hns
    obtain ⟨⟨p, r⟩, ⟨hz, hkey⟩, rfl⟩ := hns
    obtain ⟨j, hj⟩ := List.getElem?_of_mem hz
    rw [List.getElem?_zip_eq_some] at hj
    cases r with
    | key k =>
      obtain ⟨i, q, hi, hq, hm⟩ := (hent j p _ hj.1 hj.2).2.2 k rfl
      exact ⟨q, by simpa using List.mem_of_getElem? hq, hf q (List.mem_of_getElem? hq) p hm⟩
    | relative => simp at hkey
    | panicked e => simp at hkey

/-! ### Normalization itself -/

/-- A name that survives normalization. -/
def ProperName (n : Name) : Prop := n ≠ [] ∧ n ≠ ['.'] ∧ n ≠ ['.', '.'] ∧ '/' ∉ n

theorem splitSlash_ne_nil (p : Name) : splitSlash p ≠ [] := by
  cases p with
  | nil => simp [splitSlash]
  | cons a t =>
    simp only [splitSlash]
    split
    · simp
    · split <;> simp

theorem slash_not_mem_parts (p : Name) : ∀ n ∈ splitSlash p, '/' ∉ n := by
  induction p with
  | nil => simp [splitSlash]
  | cons a t ih =>
    intro n hn
    simp only [splitSlash] at hn
    split at hn
    · rcases List.mem_cons.1 hn with rfl | hn
      · simp
      · exact ih n hn
    · rename_i ha
      split at hn
      · rename_i h0; exact absurd h0 (splitSlash_ne_nil t)
      · rename_i m ms hm
        rw [hm] at ih
        rcases List.mem_cons.1 hn with rfl | hn
        · intro hc
          rcases List.mem_cons.1 hc with h1 | h1
          · exact ha h1.symm
          · exact ih m (by simp) h1
        · exact ih n (by simp [hn])

theorem splitSlash_join (ns : List Name) : ∀ n : Name, '/' ∉ n → (∀ m ∈ ns, '/' ∉ m) →
    splitSlash (n ++ ns.flatMap (fun m => '/' :: m)) = n :: ns := by
  induction ns with
  | nil =>
    intro n
    induction n with
    | nil => simp [splitSlash]
    | cons a n ih =>
      intro hn _
      have ha : a ≠ '/' := fun h => hn (by simp [h])
      have := ih (fun h => hn (by simp [h])) (by simp)
      simp only [List.flatMap_nil, List.append_nil] at this ⊢
      simp [splitSlash, ha, this]
  | cons m ns ihns =>
    intro n
    induction n with
    | nil =>
      intro _ hms
      have := ihns m (hms m (by simp)) (fun x hx => hms x (by simp [hx]))
      simp [splitSlash, this]
    | cons a n ih =>
      intro hn hms
      have ha : a ≠ '/' := fun h => hn (by simp [h])
      have := ih (fun h => hn (by simp [h])) hms
      rw [List.cons_append]
      simp only [splitSlash, if_neg ha, this]

theorem pushPath_proper (buf n : Name) (hb : buf ≠ [] ) (hl : buf.getLast? ≠ some '/') (hn : ProperName n) :
    pushPath buf n = buf ++ '/' :: n ∧ (buf ++ '/' :: n).getLast? ≠ some '/' := by
  obtain ⟨h0, -, -, hs⟩ := hn
  have hr : isRelative n = true := by
    cases n with
    | nil => exact absurd rfl h0
    | cons a t =>
      unfold isRelative
      split
      · rename_i heq; cases heq; simp at hs
      · rfl
  constructor
  · simp [pushPath, hr, hb, hl]
  · rw [List.getLast?_append_of_ne_nil _ (by simp), List.getLast?_cons]
    intro h
    cases hq : n.getLast? with
    | none => simp at hq; exact h0 hq
    | some x =>
      rw [hq] at h; simp at h; subst h
      exact hs (List.mem_of_getLast? hq)

theorem foldl_pushPath (ns : List Name) (hns : ∀ n ∈ ns, ProperName n) :
    ∀ buf : Name, buf ≠ [] → buf.getLast? ≠ some '/' →
      ns.foldl pushPath buf = buf ++ ns.flatMap (fun m => '/' :: m) := by
  induction ns with
  | nil => intro buf _ _; simp
  | cons n ns ih =>
    intro buf hb hl
    obtain ⟨h1, h2⟩ := pushPath_proper buf n hb hl (hns n (by simp))
    simp only [List.foldl_cons, h1, List.flatMap_cons]
    rw [ih (fun m hm => hns m (by simp [hm])) _ (by simp) h2]
    simp

/-- How an interned path is displayed: the root alone, or each name preceded by a slash. -/
theorem c18_display (ns : List Name) (hns : ∀ n ∈ ns, ProperName n) :
    boxedPath (['/'] :: ns) = if ns = [] then ['/'] else ns.flatMap (fun m => '/' :: m) := by
  cases ns with
  | nil => rfl
  | cons n ns =>
    have hn := hns n (by simp)
    have hr : isRelative n = true := by
      cases n with
      | nil => exact absurd rfl hn.1
      | cons a t =>
        unfold isRelative
        split
        · rename_i heq; cases heq; exact absurd hn.2.2.2 (by simp)
        · rfl
    have h1 : pushPath [] ['/'] = ['/'] := rfl
    have h2 : pushPath ['/'] n = '/' :: n := by simp [pushPath, hr]
    simp only [boxedPath, List.foldl_cons, h1, h2]
    rw [foldl_pushPath ns (fun m hm => hns m (by simp [hm])) _ (by simp)]
    · simp
    · intro h
      rw [List.getLast?_cons] at h
      cases hq : n.getLast? with
      | none => simp at hq; exact hn.1 hq
      | some x =>
        rw [hq] at h; simp at h; subst h
        exact hn.2.2.2 (List.mem_of_getLast? hq)

theorem resolveDots_proper (parts : List Name) (h : ∀ n ∈ parts, n ≠ ['.', '.']) : resolveDots parts = parts := by
  unfold resolveDots
  have : ∀ acc : List Name, parts.foldl (fun acc n => if n = ['.', '.'] then acc.dropLast else acc ++ [n]) acc = acc ++ parts := by
    induction parts with
    | nil => simp
    | cons n ps ih =>
      intro acc
      simp only [List.foldl_cons, if_neg (h n (by simp))]
      rw [ih (fun m hm => h m (by simp [hm]))]
      simp
  simpa using this []

/-- **C18, what normalization yields.** The names below the root are never empty, `.` or `..` and contain no slash. -/
theorem c18_normalized_names (p : Name) : ∀ n ∈ normalize p, ProperName n := by
  unfold normalize resolveDots
  have hparts : ∀ n ∈ partsOf p, n ≠ [] ∧ n ≠ ['.'] ∧ '/' ∉ n := by
    intro n hn
    unfold partsOf at hn
    have hm := List.mem_filter.1 hn
    have := slash_not_mem_parts p n hm.1
    simp only [decide_eq_true_eq] at hm
    exact ⟨hm.2.1, hm.2.2, this⟩
  have : ∀ (ps acc : List Name), (∀ n ∈ ps, n ≠ [] ∧ n ≠ ['.'] ∧ '/' ∉ n) → (∀ n ∈ acc, ProperName n) →
      ∀ n ∈ ps.foldl (fun acc n => if n = ['.', '.'] then acc.dropLast else acc ++ [n]) acc, ProperName n := by
    intro ps
    induction ps with
    | nil => intro acc _ h; exact h
    | cons m ps ih =>
      intro acc hp ha
      simp only [List.foldl_cons]
      apply ih _ (fun n hn => hp n (by simp [hn]))
      intro n hn
      split at hn
      · exact ha n (List.dropLast_subset _ hn)
      · rename_i hd
        rcases List.mem_append.1 hn with hn | hn
        · exact ha n hn
        · simp at hn; subst hn
          have := hp n (by simp)
          exact ⟨this.1, this.2.1, hd, this.2.2⟩
  exact this _ _ hparts (by simp)

/-- **C18, plain paths.** A path made of proper names only normalizes to those names. -/
theorem c18_plain_path (ns : List Name) (hns : ∀ n ∈ ns, ProperName n) :
    normalize (boxedPath (['/'] :: ns)) = ns := by
  rw [c18_display ns hns]
  split
  · rename_i h; subst h; decide
  · have := splitSlash_join ns [] (by simp) (fun m hm => (hns m hm).2.2.2)
    simp only [List.nil_append] at this
    unfold normalize partsOf
    rw [this]
    have hf : List.filter (fun n => decide (n ≠ [] ∧ n ≠ ['.'])) ([] :: ns) = ns := by
      rw [List.filter_cons_of_neg (by simp), List.filter_eq_self]
      intro n hn
      simp [(hns n hn).1, (hns n hn).2.1]
    rw [hf]
    exact resolveDots_proper ns (fun n hn => (hns n hn).2.2.1)

/-- **C18, idempotence.** Interning the displayed form of an interned path again gives the same key. -/
theorem c18_idempotent (c : KeyCfg) (cap : Nat) (ps : List Name) (rs : List PathRes) (s : PathInterner)
    (h : PathInterner.new.run c cap ps = (rs, s)) (i : Nat) (p : Name) (k : Nat) (comps : List Name)
    (hp : ps[i]? = some p) (hk : rs[i]? = some (.key k)) (hc : s.componentsOf c k = some comps)
    (k' : Nat) (s' : PathInterner) (h' : s.intern c cap (boxedPath comps) = (.key k', s')) : k' = k := by
  have hcomp := (c18_components c cap ps rs s h i p _ hp hk).2.2 k rfl
  rw [hc] at hcomp
  cases hcomp
  -- extend the history by one call
  have hrun : ∀ (ps : List Name) (s0 : PathInterner) (q : Name), s0.run c cap (ps ++ [q]) =
      ((s0.run c cap ps).1 ++ [((s0.run c cap ps).2.intern c cap q).1], ((s0.run c cap ps).2.intern c cap q).2) := by
    intro ps
    induction ps with
    | nil => intro s0 q; rfl
    | cons a t ih => intro s0 q; simp only [List.cons_append, PathInterner.run, ih]
  have hext := hrun ps PathInterner.new (boxedPath (['/'] :: normalize p))
  rw [h] at hext
  simp only [h'] at hext
  have hlen : rs.length = ps.length := by
    have := (path_run (c := c) (cap := cap) ps _ _ (PRep.new c)).1
    rw [h] at this; exact this
  have hi : i < ps.length := by
    by_contra hcon; rw [List.getElem?_eq_none (by omega)] at hp; cases hp
  have := c18_keys_iff c cap _ _ _ hext ps.length i (boxedPath (['/'] :: normalize p)) p k' k
    (by simp) (by rw [← hlen]; simp)
    (by rw [List.getElem?_append_left hi]; exact hp)
    (by rw [List.getElem?_append_left (by omega)]; exact hk)
  rw [this]
  exact c18_plain_path _ (c18_normalized_names p)

/-- Non-vacuity: `/a/./b/../../..//c` normalizes to `/c`, has the same key as `/c`, and a relative path is rejected. -/
example : normalize "/a/./b/../../..//c".toList = ["c".toList] ∧
    (PathInterner.new.run defaultCfg 100 ["/a/./b/../../..//c".toList, "x/y".toList, "/c/".toList, "/a".toList, "/".toList]).1 =
      [.key 2, .relative, .key 2, .key 514, .key 1025] := by decide

end Verif.Intern
