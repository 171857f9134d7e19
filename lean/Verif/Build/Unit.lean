/-
C76: from a unit of a build profile back to its compilation command.
Models how the path of a unit is computed when it is measured (cmakeperf/src/measure/worker.rs:89-96, with `pathdiff` 0.2.3)
and how it is looked up when the user selects it (src/ui/tui/trace/measure.rs:29-52, with `Path::canonicalize`).
The file system is given by what each location is; `realpath(3)` is modelled by a walk with a limit on symbolic links.
Simplifications: permissions are not modelled; a path is its list of components.
-/
import Verif.Build.Database

set_option autoImplicit false
set_option linter.unusedVariables false
set_option linter.unusedSimpArgs false

namespace Verif.Build

open Verif.Intern (Name Comp pathComponents pushPath boxedPath splitSlash compOfPart isRelative ProperName)

/-! ## Model: paths -/

/-- `Component::as_os_str` -/
def compName : Comp → Name
  | .rootDir => ['/']
  | .curDir => ['.']
  | .parentDir => ['.', '.']
  | .normal n => n

/-- A path made by pushing components one after another -/
def pathOf (cs : List Comp) : Name := boxedPath (cs.map compName)

/-- `pathdiff::diff_paths`: its loop; the last argument is `comps` -/
def diffLoop : List Comp → List Comp → List Comp → Option (List Comp)
  | [], [], acc => some acc
  | a :: p, [], acc => some (acc ++ a :: p)
  | [], _ :: b, acc => diffLoop [] b (acc ++ [.parentDir])
  | a :: p, b :: bs, acc =>
    if acc = [] ∧ a = b then diffLoop p bs acc
    else if b = .curDir then diffLoop p bs (acc ++ [a])
    else if b = .parentDir then none
    else some (acc ++ .parentDir :: bs.map (fun _ => .parentDir) ++ a :: p)

/-- `pathdiff::diff_paths` -/
def diffPaths (path base : Name) : Option Name :=
  if isRelative path != isRelative base then if !isRelative path then some path else none
  else (diffLoop (pathComponents path) (pathComponents base) []).map pathOf

/-- worker.rs:89-93: path of a unit in the profile; `cwd` is `current_dir().ok()` -/
def unitPath (cwd : Option Name) (input : Name) : Name :=
  (cwd.bind fun w => diffPaths input w).getD input

/-! ## Model: file system -/

/-- What is found at a location -/
inductive Node where
  | file
  | dir
  | link (target : List Comp)
  deriving DecidableEq

/-- Locations are lists of names from the root, without links. -/
abbrev Tree := List Name → Option Node

/-- `realpath` from a location: `limit` bounds the number of symbolic links followed. -/
def resolve (t : Tree) : Nat → List Name → List Comp → Option (List Name)
  | _, cur, [] => some cur
  | limit, _, .rootDir :: cs => resolve t limit [] cs
  | limit, cur, .curDir :: cs => resolve t limit cur cs
  | limit, cur, .parentDir :: cs => resolve t limit cur.dropLast cs
  | limit, cur, .normal n :: cs =>
    match t (cur ++ [n]), limit with
    | none, _ => none
    | some .dir, limit => resolve t limit (cur ++ [n]) cs
    | some .file, _ => if cs = [] then some (cur ++ [n]) else none
    | some (.link _), 0 => none
    | some (.link target), limit + 1 => resolve t limit cur (target ++ cs)
termination_by limit _ cs => (limit, cs.length)

/-- `Path::canonicalize` in the working directory at location `cwd`; the empty path is an error. -/
def canonicalize (t : Tree) (limit : Nat) (cwd : List Name) (path : Name) : Option Name :=
  if pathComponents path = [] then none
  else (resolve t limit cwd (pathComponents path)).map fun ns => pathOf (.rootDir :: ns.map .normal)

/-- Result of selecting a unit (trace/measure.rs:29-52) -/
inductive Selected where
  | unresolved
  | noEntry
  | entry (e : Entry)
  deriving DecidableEq

/-- trace/measure.rs:29-52 -/
def selectUnit (t : Tree) (limit : Nat) (cwd : List Name) (db : Db) (relPath : Name) : Selected :=
  match canonicalize t limit cwd relPath with
  | none => .unresolved
  | some abs =>
    match db.entry abs with
    | none => .noEntry
    | some e => .entry e

/-! ## Specification -/

/-- A location reached through directories only. -/
def RealDir (t : Tree) (w : List Name) : Prop := ∀ p s, w = p ++ s → p ≠ [] → t p = some .dir

/-- Names that can be in a directory. -/
def GoodNames (w : List Name) : Prop := ∀ n ∈ w, ProperName n

/-- The absolute path of a location. -/
def absPath (w : List Name) : Name := pathOf (.rootDir :: w.map .normal)

/-! ## Paths and their components -/

theorem compOfPart_proper {n : Name} (h : ProperName n) : compOfPart n = some (.normal n) := by
  simp [compOfPart, h.1, h.2.1, h.2.2.1]

theorem parts_proper (p : Name) : ∀ c ∈ (splitSlash p).filterMap compOfPart, c = .parentDir ∨ ∃ n, c = .normal n ∧ ProperName n := by
  intro c hc
  obtain ⟨n, hn, h⟩ := List.mem_filterMap.1 hc
  unfold compOfPart at h
  split at h
  · cases h
  · split at h
    · cases h
    · split at h
      · simp only [Option.some.injEq] at h; exact .inl h.symm
      · simp only [Option.some.injEq] at h
        exact .inr ⟨n, h.symm, by assumption, by assumption, by assumption, Verif.Intern.slash_not_mem_parts p n hn⟩

/-- Components of a path that may follow the root. -/
def Tail (cs : List Comp) : Prop := ∀ c ∈ cs, c = .parentDir ∨ ∃ n, c = .normal n ∧ ProperName n

theorem components_abs (p : Name) (h : isRelative p = false) : ∃ cs, pathComponents p = .rootDir :: cs ∧ Tail cs := by
  match p with
  | [] => simp [isRelative] at h
  | c :: r =>
    by_cases hc : c = '/'
    · subst hc; exact ⟨_, rfl, parts_proper r⟩
    · exfalso
      unfold isRelative at h
      split at h
      · rename_i e; cases e; exact hc rfl
      · cases h

theorem components_rel (p : Name) (h : isRelative p = true) : Comp.rootDir ∉ pathComponents p := by
  have hno : ∀ q : Name, Comp.rootDir ∉ (splitSlash q).filterMap compOfPart := by
    intro q hm
    rcases parts_proper q _ hm with h | ⟨n, h, -⟩ <;> cases h
  unfold pathComponents
  split
  · simp [isRelative] at h
  · rw [List.mem_append]
    rintro (hm | hm)
    · split at hm <;> simp at hm
    · exact hno _ hm

theorem names_slash {cs : List Comp} (h : Tail cs) : ∀ n ∈ cs.map compName, '/' ∉ n ∧ n ≠ [] ∧ n ≠ ['.'] := by
  intro n hn
  obtain ⟨c, hc, rfl⟩ := List.mem_map.1 hn
  rcases h c hc with rfl | ⟨m, rfl, hm⟩
  · simp [compName]
  · exact ⟨hm.2.2.2, hm.1, hm.2.1⟩

theorem push_rel (buf n : Name) (hb : buf ≠ []) (hl : buf.getLast? ≠ some '/') (hn : '/' ∉ n) (h0 : n ≠ []) :
    pushPath buf n = buf ++ '/' :: n ∧ (buf ++ '/' :: n) ≠ [] ∧ (buf ++ '/' :: n).getLast? ≠ some '/' := by
  have hr : isRelative n = true := by
    unfold isRelative
    split
    · simp at hn
    · rfl
  refine ⟨by simp [pushPath, hr, hb, hl], by simp, ?_⟩
  rw [List.getLast?_append_of_ne_nil _ (by simp), List.getLast?_cons]
  cases hq : n.getLast? with
  | none => simp at hq; exact absurd hq h0
  | some x =>
    simp only [Option.getD_some, ne_eq, Option.some.injEq]
    rintro rfl
    exact hn (List.mem_of_getLast? hq)

theorem fold_push (ns : List Name) : (∀ n ∈ ns, '/' ∉ n ∧ n ≠ [] ∧ n ≠ ['.']) → ∀ buf : Name, buf ≠ [] → buf.getLast? ≠ some '/' →
    ns.foldl pushPath buf = buf ++ ns.flatMap (fun m => '/' :: m) := by
  induction ns with
  | nil => intro _ buf _ _; simp
  | cons n ns ih =>
    intro h buf hb hl
    obtain ⟨h1, h2, h3⟩ := push_rel buf n hb hl (h n (by simp)).1 (h n (by simp)).2.1
    simp only [List.foldl_cons, h1, List.flatMap_cons]
    rw [ih (fun m hm => h m (by simp [hm])) _ h2 h3]
    simp

theorem filterMap_names {cs : List Comp} (h : Tail cs) : (cs.map compName).filterMap compOfPart = cs := by
  induction cs with
  | nil => rfl
  | cons c cs ih =>
    have := ih (fun x hx => h x (by simp [hx]))
    rcases h c (by simp) with rfl | ⟨n, rfl, hn⟩
    · simp only [List.map_cons, compName, List.filterMap_cons, this]; rfl
    · simp only [List.map_cons, compName, List.filterMap_cons, this, compOfPart_proper hn]

/-- Writing components and reading them again. -/
theorem components_pathOf {cs : List Comp} (h : Tail cs) :
    pathComponents (pathOf cs) = cs ∧ pathComponents (pathOf (.rootDir :: cs)) = .rootDir :: cs := by
  have hs := names_slash h
  have hf := filterMap_names h
  unfold pathOf boxedPath
  constructor
  · cases cs with
    | nil => rfl
    | cons c cs =>
      simp only [List.map_cons] at hs hf ⊢
      have h0 := hs (compName c) (by simp)
      have hr : isRelative (compName c) = true := by
        unfold isRelative
        split
        · rename_i e; rw [e] at h0; simp at h0
        · rfl
      have hp : pushPath [] (compName c) = compName c := by simp [pushPath, hr]
      simp only [List.foldl_cons, hp]
      rw [fold_push _ (fun n hn => hs n (by simp [hn])) _ h0.2.1 (by
        intro e; exact h0.1 (List.mem_of_getLast? e))]
      have hj := Verif.Intern.splitSlash_join (cs.map compName) (compName c) h0.1 (fun m hm => (hs m (by simp [hm])).1)
      unfold pathComponents
      split
      · rename_i e
        cases hc : compName c with
        | nil => exact absurd hc h0.2.1
        | cons a r => rw [hc] at e h0; simp only [List.cons_append, List.cons.injEq] at e; rw [e.1] at h0; simp at h0
      · rw [hj]
        simp only [List.head?_cons, Option.some.injEq]
        rw [if_neg h0.2.2, List.nil_append, hf]
  · cases cs with
    | nil => rfl
    | cons c cs =>
      simp only [List.map_cons] at hs hf ⊢
      have h0 := hs (compName c) (by simp)
      have hr : isRelative (compName c) = true := by
        unfold isRelative
        split
        · rename_i e; rw [e] at h0; simp at h0
        · rfl
      have hp : pushPath ['/'] (compName c) = '/' :: compName c := by simp [pushPath, hr]
      have hq : pushPath [] (compName .rootDir) = ['/'] := rfl
      simp only [List.foldl_cons, hq, hp]
      rw [fold_push _ (fun n hn => hs n (by simp [hn])) _ (by simp) (by
        rw [List.getLast?_cons]
        cases hl : (compName c).getLast? with
        | none => simp at hl; exact absurd hl h0.2.1
        | some x =>
          simp only [Option.getD_some, ne_eq, Option.some.injEq]
          rintro rfl
          exact h0.1 (List.mem_of_getLast? hl))]
      have hj := Verif.Intern.splitSlash_join (cs.map compName) (compName c) h0.1 (fun m hm => (hs m (by simp [hm])).1)
      rw [List.cons_append]
      simp only [pathComponents]
      rw [hj, hf]

theorem tail_names {w : List Name} (h : GoodNames w) : Tail (w.map .normal) := by
  intro c hc
  obtain ⟨n, hn, rfl⟩ := List.mem_map.1 hc
  exact .inr ⟨n, rfl, h n hn⟩

theorem components_absPath {w : List Name} (h : GoodNames w) : pathComponents (absPath w) = .rootDir :: w.map .normal :=
  (components_pathOf (tail_names h)).2

/-! ## Resolution -/

theorem resolve_dir {t : Tree} {cur : List Name} {n : Name} (h : t (cur ++ [n]) = some .dir) (limit : Nat) (cs : List Comp) :
    resolve t limit cur (.normal n :: cs) = resolve t limit (cur ++ [n]) cs := by
  rw [resolve.eq_def]; simp only [h]

theorem resolve_last {t : Tree} {cur : List Name} {n : Name} (h : t (cur ++ [n]) = some .file) (limit : Nat) :
    resolve t limit cur [.normal n] = some (cur ++ [n]) := by
  rw [resolve.eq_def]; simp only [h, if_true]

theorem resolve_up (t : Tree) (limit : Nat) (cs : List Comp) : ∀ (s pre : List Name),
    resolve t limit (pre ++ s) (s.map (fun _ => Comp.parentDir) ++ cs) = resolve t limit pre cs := by
  intro s
  induction s using List.reverseRecOn with
  | nil => intro pre; simp
  | append_singleton s n ih =>
    intro pre
    rw [show (s ++ [n]).map (fun _ => Comp.parentDir) ++ cs = .parentDir :: (s.map (fun _ => Comp.parentDir) ++ cs) by
      simp only [List.map_append, List.map_cons, List.map_nil, List.append_assoc, List.cons_append, List.nil_append]
      rw [show s.map (fun _ => Comp.parentDir) = List.replicate s.length Comp.parentDir by simp [List.map_const']]
      rw [← List.cons_append, ← List.replicate_succ, List.replicate_succ', List.append_assoc]; rfl]
    rw [resolve, ← List.append_assoc, List.dropLast_concat, ih]

theorem diff_nil (bs acc : List Comp) : diffLoop [] bs acc = some (acc ++ bs.map fun _ => .parentDir) := by
  induction bs generalizing acc with
  | nil => simp [diffLoop]
  | cons b bs ih => rw [diffLoop, ih]; simp

/-- The relative path leads from the working directory to where the original path leads. -/
theorem diff_resolve (t : Tree) (limit : Nat) : ∀ (s pre : List Name) (ps : List Comp), RealDir t (pre ++ s) →
    ∃ rel, diffLoop ps (s.map .normal) [] = some rel ∧ resolve t limit (pre ++ s) rel = resolve t limit pre ps ∧
      (Tail ps → Tail rel) ∧ (rel = [] ↔ ps = s.map .normal) := by
  intro s
  induction s with
  | nil =>
    intro pre ps _
    cases ps with
    | nil => exact ⟨[], by simp [diffLoop], by simp, fun h => h, by simp⟩
    | cons a p => exact ⟨a :: p, by simp [diffLoop], by simp, fun h => h, by simp⟩
  | cons n s ih =>
    intro pre ps hd
    cases ps with
    | nil =>
      refine ⟨_, diff_nil _ _, ?_, ?_, by simp⟩
      · have := resolve_up t limit [] (n :: s) pre
        rw [List.append_nil] at this
        rw [List.nil_append, List.map_map]
        exact this
      · intro _ c hc
        simp only [List.nil_append, List.mem_map] at hc
        obtain ⟨-, -, rfl⟩ := hc
        exact .inl rfl
    | cons a p =>
      by_cases ha : a = .normal n
      · subst ha
        obtain ⟨rel, h1, h2, h3, h4⟩ := ih (pre ++ [n]) p (by simpa using hd)
        refine ⟨rel, by simp [diffLoop, h1], ?_, fun h => h3 (fun c hc => h c (by simp [hc])), by simp [h4]⟩
        rw [show pre ++ n :: s = pre ++ [n] ++ s by simp, h2]
        have hdir : t (pre ++ [n]) = some .dir := hd (pre ++ [n]) s (by simp) (by simp)
        rw [resolve_dir hdir]
      · refine ⟨.parentDir :: (s.map Comp.normal).map (fun _ => .parentDir) ++ a :: p, ?_, ?_, ?_, ?_⟩
        · simp [diffLoop, ha]
        · have := resolve_up t limit (a :: p) (n :: s) pre
          rw [List.map_map]
          exact this
        · intro h c hc
          simp only [List.cons_append, List.mem_cons, List.mem_append, List.mem_map] at hc
          rcases hc with rfl | ⟨-, -, rfl⟩ | rfl | hc
          · exact .inl rfl
          · exact .inl rfl
          · exact h _ (by simp)
          · exact h _ (by simp [hc])
        · simp [ha]

theorem absPath_relative {w : List Name} (h : GoodNames w) : isRelative (absPath w) = false := by
  by_contra hr
  simp only [Bool.not_eq_false] at hr
  have := components_rel _ hr
  rw [components_absPath h] at this
  simp at this

/-- **C76.** In the working directory in which it was measured, the path of a unit leads to the same place as the path of
its source file in the compilation database, whatever links and `..` the latter goes through. -/
theorem c76_same_file (t : Tree) (limit : Nat) (cwd : List Name) (hg : GoodNames cwd) (hd : RealDir t cwd) (input : Name)
    (habs : isRelative input = false) (hne : pathComponents input ≠ pathComponents (absPath cwd)) :
    canonicalize t limit cwd (unitPath (some (absPath cwd)) input) = canonicalize t limit cwd input := by
  obtain ⟨ps, hps, htail⟩ := components_abs input habs
  obtain ⟨rel, h1, h2, h3, h4⟩ := diff_resolve t limit cwd [] ps (by simpa using hd)
  have hu : unitPath (some (absPath cwd)) input = pathOf rel := by
    simp only [unitPath, Option.bind_some, diffPaths, habs, absPath_relative hg, bne_self_eq_false, Bool.false_eq_true, if_false]
    rw [hps, components_absPath hg]
    simp only [diffLoop, and_self, if_true, h1, Option.map_some, Option.getD_some]
  have hrel : rel ≠ [] := by
    intro h
    apply hne
    rw [hps, components_absPath hg, h4.1 h]
  unfold canonicalize
  rw [hu, (components_pathOf (h3 htail)).1, hps, if_neg hrel, if_neg (by simp)]
  rw [List.nil_append] at h2
  rw [h2]
  conv_rhs => rw [resolve]

/-- A source file that is where its path says, links excluded. -/
def RealFile (t : Tree) (f : List Name) : Prop := ∃ d n, f = d ++ [n] ∧ RealDir t d ∧ t f = some .file

theorem resolve_down (t : Tree) (limit : Nat) (cs : List Comp) : ∀ (s pre : List Name), RealDir t (pre ++ s) →
    resolve t limit pre (s.map .normal ++ cs) = resolve t limit (pre ++ s) cs := by
  intro s
  induction s with
  | nil => intro pre _; simp
  | cons n s ih =>
    intro pre hd
    have hdir : t (pre ++ [n]) = some .dir := hd (pre ++ [n]) s (by simp) (by simp)
    rw [List.map_cons, List.cons_append, resolve_dir hdir]
    rw [ih (pre ++ [n]) (by simpa using hd)]
    simp

theorem resolve_file (t : Tree) (limit : Nat) (f : List Name) (h : RealFile t f) :
    resolve t limit [] (f.map .normal) = some f := by
  obtain ⟨d, n, rfl, hd, hf⟩ := h
  rw [List.map_append, resolve_down t limit _ d [] (by simpa using hd), List.nil_append, List.map_cons, List.map_nil,
    resolve_last hf]

/-- **C76.** Selecting a unit finds the compilation command of its source file, if the compilation database gives the real
path of that file. -/
theorem c76_found (t : Tree) (limit : Nat) (cwd f : List Name) (hc : GoodNames cwd) (hd : RealDir t cwd) (hf : GoodNames f)
    (hr : RealFile t f) (db : Db) (e : Entry) (hpath : pathComponents e.file = pathComponents (absPath f))
    (he : db.entry e.file = some e) :
    selectUnit t limit cwd db (unitPath (some (absPath cwd)) e.file) = .entry e := by
  have hcomp := components_absPath hf
  have habs : isRelative e.file = false := by
    by_contra h
    simp only [Bool.not_eq_false] at h
    have := components_rel _ h
    rw [hpath, hcomp] at this
    simp at this
  have hne : pathComponents e.file ≠ pathComponents (absPath cwd) := by
    rw [hpath, hcomp, components_absPath hc]
    intro h
    simp only [List.cons.injEq, true_and] at h
    have h' : f = cwd := by
      have hinj : Function.Injective (Comp.normal) := fun a b h => by cases h; rfl
      exact List.map_injective_iff.2 hinj h
    obtain ⟨d, n, rfl, -, h1⟩ := hr
    have := hd cwd [] (by simp) (by rw [← h']; simp)
    rw [← h', h1] at this; cases this
  have hcan : canonicalize t limit cwd e.file = some (absPath f) := by
    unfold canonicalize
    rw [hpath, hcomp, if_neg (by simp), resolve, resolve_file t limit f hr]
    rfl
  unfold selectUnit
  rw [c76_same_file t limit cwd hc hd e.file habs hne, hcan]
  simp only
  have : db.entry (absPath f) = db.entry e.file := by
    unfold Db.entry samePath
    rw [hpath]
  rw [this, he]

/-- **C76.** In general the command found is that of the real path of the source file, whatever spelling the entry of the unit
uses. In particular a unit whose path in the database goes through a symbolic link is not found, unless another entry gives
the real path. -/
theorem c76_selected_iff (t : Tree) (limit : Nat) (cwd : List Name) (hc : GoodNames cwd) (hd : RealDir t cwd) (es : List Entry)
    (input : Name) (habs : isRelative input = false) (hne : pathComponents input ≠ pathComponents (absPath cwd)) :
    let sel := selectUnit t limit cwd (Db.fromEntries es) (unitPath (some (absPath cwd)) input)
    (sel = .unresolved ↔ canonicalize t limit cwd input = none) ∧
    (sel = .noEntry ↔ ∃ real, canonicalize t limit cwd input = some real ∧
      ∀ e ∈ es, pathComponents e.file ≠ pathComponents real) ∧
    ∀ e, sel = .entry e → e ∈ es ∧ ∃ real, canonicalize t limit cwd input = some real ∧
      pathComponents e.file = pathComponents real := by
  intro sel
  have hs : sel = selectUnit t limit cwd (Db.fromEntries es) (unitPath (some (absPath cwd)) input) := rfl
  unfold selectUnit at hs
  rw [c76_same_file t limit cwd hc hd input habs hne] at hs
  cases hcan : canonicalize t limit cwd input with
  | none => rw [hcan] at hs; simp [hs]
  | some real =>
    rw [hcan] at hs
    simp only at hs
    obtain ⟨-, h2, h3, -⟩ := c27_from_entries es real
    cases hl : (Db.fromEntries es).entry real with
    | none =>
      rw [hl] at hs
      have := h2.1 hl
      simp [hs]
      exact this
    | some e =>
      rw [hl] at hs
      obtain ⟨h4, h5⟩ := h3 e hl
      refine ⟨by simp [hs], ?_, ?_⟩
      · simp only [hs, reduceCtorEq, Option.some.injEq, exists_eq_left', false_iff]
        intro h; exact h e h4 h5
      · intro e' he'
        rw [hs] at he'
        simp only [Selected.entry.injEq] at he'
        subst he'
        exact ⟨h4, real, rfl, h5⟩

theorem pathOf_abs (cs : List Comp) : ∃ r, pathOf (.rootDir :: cs) = '/' :: r := by
  have key : ∀ (ns : List Name) (r : Name), ∃ r', ns.foldl pushPath ('/' :: r) = '/' :: r' := by
    intro ns
    induction ns with
    | nil => intro r; exact ⟨r, rfl⟩
    | cons n ns ih =>
      intro r
      rw [List.foldl_cons]
      by_cases hn : isRelative n = true
      · by_cases hb : ('/' :: r : Name).getLast? = some '/'
        · rw [show pushPath ('/' :: r) n = '/' :: (r ++ n) by simp [pushPath, hn, hb]]; exact ih _
        · rw [show pushPath ('/' :: r) n = '/' :: (r ++ '/' :: n) by simp [pushPath, hn, hb]]; exact ih _
      · rw [show pushPath ('/' :: r) n = n by simp [pushPath, hn]]
        match n, hn with
        | [], hn => simp [isRelative] at hn
        | c :: n, hn =>
          by_cases hc : c = '/'
          · subst hc; exact ih _
          · exfalso; apply hn; unfold isRelative; split
            · rename_i e; cases e; exact absurd rfl hc
            · rfl
  exact key (cs.map compName) []

/-- **C76, limit.** An entry whose file is given by a relative path, as some tools do, is never found: units are looked up
by absolute paths. -/
theorem c76_relative_violated (t : Tree) (limit : Nat) (cwd : List Name) (es : List Entry) (e : Entry)
    (hrel : isRelative e.file = true) (unit : Name) :
    selectUnit t limit cwd (Db.fromEntries es) unit ≠ .entry e := by
  intro h
  unfold selectUnit at h
  cases hcan : canonicalize t limit cwd unit with
  | none => rw [hcan] at h; cases h
  | some real =>
    rw [hcan] at h
    simp only at h
    cases hl : (Db.fromEntries es).entry real with
    | none => rw [hl] at h; cases h
    | some e' =>
      rw [hl] at h
      simp only [Selected.entry.injEq] at h
      subst h
      have := ((c27_from_entries es real).2.2.1 _ hl).2
      unfold canonicalize at hcan
      split at hcan
      · cases hcan
      · rw [Option.map_eq_some_iff] at hcan
        obtain ⟨ns, -, hr⟩ := hcan
        obtain ⟨r, hr'⟩ := pathOf_abs (ns.map .normal)
        rw [hr'] at hr
        have hno := components_rel _ hrel
        rw [this, ← hr] at hno
        simp [pathComponents] at hno

/-! ## Examples -/

/-- `/s/a.cpp` and `/b` are real, `/l` is a link to `/s`. -/
def exTree : Tree := fun p =>
  if p = ["s".toList] then some .dir
  else if p = ["b".toList] then some .dir
  else if p = ["s".toList, "a.cpp".toList] then some .file
  else if p = ["l".toList] then some (.link [.rootDir, .normal "s".toList])
  else none

def exEntry (file : Name) : Entry := ⟨"/b".toList, [], file, none⟩

theorem exB : RealDir exTree ["b".toList] := by
  intro p s h hne
  cases p with
  | nil => exact absurd rfl hne
  | cons a p =>
    simp only [List.cons_append, List.cons.injEq] at h
    have : p = [] := by cases p with | nil => rfl | cons => simp at h
    rw [this, ← h.1]; rfl

/-- Units are written relative to the build directory. -/
example : unitPath (some "/b".toList) "/s/a.cpp".toList = "../s/a.cpp".toList := by decide +kernel

/-- The unit of a real path is found. -/
example : selectUnit exTree 40 ["b".toList] (Db.fromEntries [exEntry "/s/a.cpp".toList])
    (unitPath (some (absPath ["b".toList])) "/s/a.cpp".toList) = .entry (exEntry "/s/a.cpp".toList) := by
  refine c76_found exTree 40 ["b".toList] ["s".toList, "a.cpp".toList] ?_ exB ?_ ?_ _ (exEntry "/s/a.cpp".toList) (by decide +kernel)
    (by decide +kernel)
  · simp [GoodNames, ProperName]
  · simp [GoodNames, ProperName]
  · refine ⟨["s".toList], "a.cpp".toList, rfl, ?_, rfl⟩
    intro p s h hne
    cases p with
    | nil => exact absurd rfl hne
    | cons a p =>
      simp only [List.cons_append, List.cons.injEq] at h
      have : p = [] := by cases p with | nil => rfl | cons => simp at h
      rw [this, ← h.1]; rfl

theorem resolve_link {t : Tree} {cur : List Name} {n : Name} {target : List Comp} (h : t (cur ++ [n]) = some (.link target))
    (limit : Nat) (cs : List Comp) :
    resolve t (limit + 1) cur (.normal n :: cs) = resolve t limit cur (target ++ cs) := by
  rw [resolve.eq_def]; simp only [h]

theorem ex_link : canonicalize exTree 40 ["b".toList] "/l/a.cpp".toList = some "/s/a.cpp".toList := by
  have hp : pathComponents "/l/a.cpp".toList = [.rootDir, .normal "l".toList, .normal "a.cpp".toList] := by decide +kernel
  unfold canonicalize
  rw [hp, if_neg (by simp), resolve]
  rw [resolve_link (target := [.rootDir, .normal "s".toList]) (by rfl)]
  rw [List.cons_append, resolve, List.cons_append, resolve_dir (by rfl), List.nil_append, List.nil_append, resolve_last (by rfl)]
  decide +kernel

/-- **C76, limit.** The unit of a path through a link is not found, although its entry is in the database and its file
exists. -/
theorem c76_link_violated : selectUnit exTree 40 ["b".toList] (Db.fromEntries [exEntry "/l/a.cpp".toList])
    (unitPath (some (absPath ["b".toList])) "/l/a.cpp".toList) = .noEntry ∧
    (Db.fromEntries [exEntry "/l/a.cpp".toList]).entry "/l/a.cpp".toList = some (exEntry "/l/a.cpp".toList) ∧
    canonicalize exTree 40 ["b".toList] "/l/a.cpp".toList = some "/s/a.cpp".toList := by
  refine ⟨?_, by decide +kernel, ex_link⟩
  unfold selectUnit
  rw [c76_same_file exTree 40 ["b".toList] (by simp [GoodNames, ProperName]) exB _ (by decide +kernel) (by decide +kernel), ex_link]
  decide +kernel

end Verif.Build
