/-
C77: what selecting a unit does.
Models `show_wizard` of src/ui/tui/trace/measure.rs (lines 22-105), composed of the lookup of the unit (C76), its output
file (C29), the freshness of its trace (C28), the question to the user (C45) and the command to run (C75).
Simplification: a path is its list of components, written by pushing them one after another.
-/
import Verif.Build.Unit
import Verif.Build.DatabaseJson
import Verif.Tui.Prompt
import Verif.Tui.Files

set_option autoImplicit false
set_option linter.unusedVariables false
set_option linter.unusedSimpArgs false

namespace Verif.Tui.Wizard

open Verif.Intern (Name Comp pathComponents isRelative ProperName)
open Verif.Build

/-! ## Model -/

/-- `PathBuf::set_extension("json")`: nothing happens to a path without a file name -/
def setJson (cs : List Comp) : List Comp :=
  match cs.getLast? with
  | some (.normal n) => cs.dropLast ++ [.normal (Verif.Tui.stem n ++ ".json".toList)]
  | _ => cs

/-- `Path::canonicalize` on component lists -/
def canonComps (t : Tree) (limit : Nat) (cwd : List Name) (cs : List Comp) : Option (List Comp) :=
  if cs = [] then none else (resolve t limit cwd cs).map fun ns => .rootDir :: ns.map .normal

/-- trace/measure.rs:54-65: path of the time trace of an entry -/
def tracePath (t : Tree) (limit : Nat) (cwd : List Name) (e : Entry) : Option (List Comp) :=
  (e.outputPath (canonComps t limit cwd)).map setJson

/-- What `show_wizard` ends up doing -/
inductive Outcome where
  | unresolved
  | noEntry
  | noOutput
  | freshnessError
  | measure (command : Command) (trace : List Comp)
  | load (trace : List Comp)
  | nothing
  deriving DecidableEq

/-- trace/measure.rs:54-105: from the entry on -/
def fromEntry (t : Tree) (limit : Nat) (cwd : List Name) (fs : Verif.Build.Fs) (clangpp : Name) (granularity : Option Name)
    (user : Prompt.User) (e : Entry) : Outcome :=
  match tracePath t limit cwd e with
  | none => .noOutput
  | some trace =>
    match Prompt.showWizard (e.derivedFreshness fs (pathOf trace)) user with
    | .errorDialog => .freshnessError
    | .measure => .measure (traceCommand clangpp granularity e) trace
    | .load => .load trace
    | .nothing => .nothing

/-- trace/measure.rs:22-105 `show_wizard` -/
def wizard (t : Tree) (limit : Nat) (cwd : List Name) (fs : Verif.Build.Fs) (clangpp : Name) (granularity : Option Name)
    (user : Prompt.User) (db : Db) (unit : Name) : Outcome :=
  match selectUnit t limit cwd db unit with
  | .unresolved => .unresolved
  | .noEntry => .noEntry
  | .entry e => fromEntry t limit cwd fs clangpp granularity user e

/-! ## Specification -/

/-- `clang++ -ftime-trace -o name` writes its trace to `trace`, in the same directory: the extension is replaced by `json`. -/
inductive TraceName : Name → Name → Prop where
  | ext (s e : Name) : s ≠ [] → '.' ∉ e → TraceName (s ++ '.' :: e) (s ++ ".json".toList)
  | plain (n : Name) : '.' ∉ n → TraceName n (n ++ ".json".toList)

/-- There is a directory at this location. -/
def IsDir (t : Tree) (d : List Name) : Prop := d = [] ∨ t d = some .dir

/-- The time trace written by clang, run with `-o rel` in directory `dir` by a process at `cwd`, is at location `loc`:
entering `dir` follows at most `l1` links, and finding the directory of the output at most `l2`. -/
def ClangWrites (t : Tree) (l1 l2 : Nat) (cwd : List Name) (dir rel : List Comp) (loc : List Name) : Prop :=
  ∃ d d' pre name trace, resolve t l1 cwd dir = some d ∧ IsDir t d ∧ rel = pre ++ [.normal name] ∧
    resolve t l2 d pre = some d' ∧ IsDir t d' ∧ TraceName name trace ∧ loc = d' ++ [trace]

/-- A path names this location of a file in an existing directory. -/
def LeadsTo (t : Tree) (limit : Nat) (cwd : List Name) (path : List Comp) (loc : List Name) : Prop :=
  ∃ pre d name, path = pre ++ [.normal name] ∧ resolve t limit cwd pre = some d ∧ IsDir t d ∧ loc = d ++ [name]

/-! ## Proofs -/

theorem stem_plain (n : Name) (h : '.' ∉ n) : Verif.Tui.stem n = n := by
  have : ∀ l : List Char, '.' ∉ l → l.dropWhile (fun c => decide (c ≠ '.')) = [] := by
    intro l hl
    induction l with
    | nil => rfl
    | cons x l ih =>
      have hx : x ≠ '.' := fun e => hl (by simp [e])
      rw [List.dropWhile_cons_of_pos (by simpa using hx), ih (fun e => hl (by simp [e]))]
  unfold Verif.Tui.stem
  have h' := this n.reverse (by simpa using h)
  simp only [ne_eq] at h' ⊢
  rw [h']
  simp

theorem setJson_spec (pre : List Comp) (name trace : Name) (h : TraceName name trace) :
    setJson (pre ++ [.normal name]) = pre ++ [.normal trace] := by
  unfold setJson
  simp only [List.getLast?_concat, List.dropLast_concat]
  cases h with
  | ext s e hs he => rw [Verif.Tui.stem_ext s e hs he]
  | plain n hn => rw [stem_plain name hn]

theorem resolve_mono (t : Tree) (l : Nat) (cur : List Name) (cs : List Comp) : ∀ (r : List Name), resolve t l cur cs = some r →
    ∀ k, resolve t (l + k) cur cs = some r := by
  induction l, cur, cs using resolve.induct t with
  | case1 l cur => intro r h k; rw [resolve] at h ⊢; exact h
  | case2 l cur cs ih => intro r h k; rw [resolve] at h ⊢; exact ih r h k
  | case3 l cur cs ih => intro r h k; rw [resolve] at h ⊢; exact ih r h k
  | case4 l cur cs ih => intro r h k; rw [resolve] at h ⊢; exact ih r h k
  | case5 l cur n cs hn => intro r h k; rw [resolve.eq_def] at h; simp [hn] at h
  | case6 l cur n cs hn ih => intro r h k; rw [resolve_dir hn] at h ⊢; exact ih r h k
  | case7 l cur n hn => intro r h k; rw [resolve_last hn] at h ⊢; exact h
  | case8 l cur n cs hn hcs => intro r h k; rw [resolve.eq_def] at h; simp [hn, hcs] at h
  | case9 cur n cs tg hn => intro r h k; rw [resolve.eq_def] at h; simp [hn] at h
  | case10 cur n cs tg l hn ih =>
    intro r h k
    rw [resolve_link hn] at h
    rw [show l.succ + k = (l + k) + 1 by omega, resolve_link hn]
    exact ih r h k

/-- Following a path in two steps. -/
theorem resolve_append (t : Tree) (l1 : Nat) (cur : List Name) (a : List Comp) : ∀ (d : List Name), resolve t l1 cur a = some d →
    IsDir t d → ∀ (l2 : Nat) (b : List Comp) (r : List Name), resolve t l2 d b = some r →
    resolve t (l1 + l2) cur (a ++ b) = some r := by
  induction l1, cur, a using resolve.induct t with
  | case1 l cur =>
    intro d h hd l2 b r h2
    rw [resolve] at h; cases h
    rw [Nat.add_comm]
    exact resolve_mono t l2 cur b r h2 l
  | case2 l cur cs ih => intro d h hd l2 b r h2; rw [resolve] at h; rw [List.cons_append, resolve]; exact ih d h hd l2 b r h2
  | case3 l cur cs ih => intro d h hd l2 b r h2; rw [resolve] at h; rw [List.cons_append, resolve]; exact ih d h hd l2 b r h2
  | case4 l cur cs ih => intro d h hd l2 b r h2; rw [resolve] at h; rw [List.cons_append, resolve]; exact ih d h hd l2 b r h2
  | case5 l cur n cs hn => intro d h; rw [resolve.eq_def] at h; simp [hn] at h
  | case6 l cur n cs hn ih =>
    intro d h hd l2 b r h2
    rw [resolve_dir hn] at h; rw [List.cons_append, resolve_dir hn]; exact ih d h hd l2 b r h2
  | case7 l cur n hn =>
    intro d h hd
    rw [resolve_last hn] at h; cases h
    rcases hd with hd | hd
    · simp at hd
    · rw [hn] at hd; cases hd
  | case8 l cur n cs hn hcs => intro d h; rw [resolve.eq_def] at h; simp [hn, hcs] at h
  | case9 cur n cs tg hn => intro d h; rw [resolve.eq_def] at h; simp [hn] at h
  | case10 cur n cs tg l hn ih =>
    intro d h hd l2 b r h2
    rw [resolve_link hn] at h
    rw [show l.succ + l2 = (l + l2) + 1 by omega, List.cons_append, resolve_link hn, ← List.append_assoc]
    exact ih d h hd l2 b r h2

theorem realDir_nil (t : Tree) : RealDir t [] := by
  intro p s h hp
  have : p = [] := by cases p with | nil => rfl | cons => simp at h
  exact absurd this hp

theorem realDir_dropLast {t : Tree} {w : List Name} (h : RealDir t w) : RealDir t w.dropLast := by
  intro p s hw hp
  cases hl : w.getLast? with
  | none => simp at hl; subst hl; exact h p s hw hp
  | some x =>
    refine h p (s ++ [x]) ?_ hp
    have := List.dropLast_append_getLast? x hl
    rw [← this, hw]; simp

theorem realDir_snoc {t : Tree} {w : List Name} {n : Name} (h : RealDir t w) (hn : t (w ++ [n]) = some .dir) :
    RealDir t (w ++ [n]) := by
  intro p s hw hp
  rcases List.eq_nil_or_concat s with rfl | ⟨s', x, rfl⟩
  · rw [List.append_nil] at hw; rw [← hw]; exact hn
  · rw [List.concat_eq_append, ← List.append_assoc] at hw
    have := (List.append_inj' hw rfl).1
    exact h p s' this hp

/-- Paths lead to real locations. -/
theorem resolve_real (t : Tree) (l : Nat) (cur : List Name) (cs : List Comp) : RealDir t cur → ∀ (r : List Name),
    resolve t l cur cs = some r → IsDir t r → RealDir t r := by
  induction l, cur, cs using resolve.induct t with
  | case1 l cur => intro hc r h _; rw [resolve] at h; cases h; exact hc
  | case2 l cur cs ih => intro hc r h; rw [resolve] at h; exact ih (realDir_nil t) r h
  | case3 l cur cs ih => intro hc r h; rw [resolve] at h; exact ih hc r h
  | case4 l cur cs ih => intro hc r h; rw [resolve] at h; exact ih (realDir_dropLast hc) r h
  | case5 l cur n cs hn => intro hc r h; rw [resolve.eq_def] at h; simp [hn] at h
  | case6 l cur n cs hn ih => intro hc r h; rw [resolve_dir hn] at h; exact ih (realDir_snoc hc hn) r h
  | case7 l cur n hn =>
    intro hc r h hd
    rw [resolve_last hn] at h; cases h
    rcases hd with hd | hd
    · simp at hd
    · rw [hn] at hd; cases hd
  | case8 l cur n cs hn hcs => intro hc r h; rw [resolve.eq_def] at h; simp [hn, hcs] at h
  | case9 cur n cs tg hn => intro hc r h; rw [resolve.eq_def] at h; simp [hn] at h
  | case10 cur n cs tg l hn ih => intro hc r h; rw [resolve_link hn] at h; exact ih hc r h

/-- Only the first component of a path can be `.`. -/
theorem curDir_head (p : Name) (c : Comp) (cs : List Comp) (h : pathComponents p = c :: cs) : Comp.curDir ∉ cs := by
  have hno : ∀ q : Name, Comp.curDir ∉ (Verif.Intern.splitSlash q).filterMap Verif.Intern.compOfPart := by
    intro q hm
    rcases parts_proper q _ hm with h | ⟨n, h, -⟩ <;> cases h
  unfold pathComponents at h
  split at h
  · simp only [List.cons.injEq] at h; rw [← h.2]; exact hno _
  · split at h
    · simp only [List.cons_append, List.nil_append, List.cons.injEq] at h; rw [← h.2]; exact hno _
    · rw [List.nil_append] at h
      intro hm
      refine hno p ?_
      rw [h]; simp [hm]

/-- **C77, where the trace is.** The trace that is shown after a measurement is the one that clang wrote: the path computed
from the compilation command leads to the file in which clang, run with the same `-o` in the entry's directory, writes its
trace. -/
theorem c77_trace_place (t : Tree) (limit l1 l2 : Nat) (hl : l1 + l2 ≤ limit) (cwd : List Name) (hc : RealDir t cwd) (e : Entry)
    (rel : Name) (ho : e.output = none) (harg : OutputArg e.words rel) (hdir : pathComponents e.directory ≠ [])
    (loc : List Name) (h : ClangWrites t l1 l2 cwd (pathComponents e.directory) (pathComponents rel) loc) :
    ∃ trace, tracePath t limit cwd e = some trace ∧ LeadsTo t limit cwd trace loc := by
  obtain ⟨d, d', pre, name, tr, h1, hd, hrel, h2, hd', htn, rfl⟩ := h
  have hres : resolve t limit cwd (joinComps (pathComponents e.directory) pre) = some d' := by
    obtain ⟨k, rfl⟩ : ∃ k, limit = l1 + l2 + k := ⟨limit - (l1 + l2), by omega⟩
    apply resolve_mono
    unfold joinComps
    split
    · rename_i hroot
      cases pre with
      | nil => simp at hroot
      | cons c pre =>
        simp only [List.head?_cons, Option.some.injEq] at hroot
        subst hroot
        rw [resolve] at h2 ⊢
        rw [Nat.add_comm]
        exact resolve_mono t l2 [] pre d' h2 l1
    · refine resolve_append t l1 cwd _ d h1 hd l2 _ d' ?_
      cases pre with
      | nil => simpa using h2
      | cons c pre =>
        have hcur : Comp.curDir ∉ pre ++ [.normal name] := curDir_head rel c _ hrel
        have hf : pre.filter (fun c => c ≠ .curDir) = pre := by
          rw [List.filter_eq_self]
          intro x hx
          simp only [decide_eq_true_eq]
          rintro rfl
          exact hcur (by simp [hx])
        by_cases hcc : c = .curDir
        · subst hcc
          rw [resolve] at h2
          rw [List.filter_cons_of_neg (by simp), hf]
          exact h2
        · rw [List.filter_cons_of_pos (by simpa using hcc), hf]
          exact h2
  have hne : joinComps (pathComponents e.directory) pre ≠ [] := by
    unfold joinComps
    split
    · rename_i hroot; intro hp; rw [hp] at hroot; simp at hroot
    · simp [hdir]
  have hcan : canonComps t limit cwd (joinComps (pathComponents e.directory) pre) = some (.rootDir :: d'.map .normal) := by
    unfold canonComps
    rw [if_neg hne, hres]; rfl
  have hout := (c29_output e (canonComps t limit cwd)).2.2.2 rel pre name ho harg hrel
  rw [hcan, Option.getD_some] at hout
  have hj : joinComps (.rootDir :: d'.map .normal) [.normal name] = (.rootDir :: d'.map .normal) ++ [.normal name] := by
    simp [joinComps]
  rw [hj] at hout
  refine ⟨(.rootDir :: d'.map .normal) ++ [.normal tr], ?_, .rootDir :: d'.map .normal, d', tr, rfl, ?_, hd', rfl⟩
  · unfold tracePath
    rw [hout, Option.map_some, setJson_spec _ _ _ htn]
  · rw [resolve]
    have := resolve_down t limit [] d' [] (by simpa using resolve_real t limit cwd _ hc d' hres hd')
    rw [List.append_nil, List.nil_append] at this
    rw [this, resolve]

/-- **C77, given output.** If the database names the output, the trace is looked for next to it, from the working directory of
crofiler. -/
theorem c77_given_output (t : Tree) (limit : Nat) (cwd : List Name) (e : Entry) (out : Name) (ho : e.output = some out)
    (pre : List Comp) (name trace : Name) (hp : pathComponents out = pre ++ [.normal name]) (hn : TraceName name trace) :
    tracePath t limit cwd e = some (pre ++ [.normal trace]) := by
  unfold tracePath
  rw [(c29_output e _).1 out ho, Option.map_some, hp, setJson_spec _ _ _ hn]

section
variable (t : Tree) (limit : Nat) (cwd : List Name) (fs : Verif.Build.Fs) (clangpp : Name) (granularity : Option Name)
  (user : Prompt.User) (db : Db) (unit : Name)

/-- **C77, measuring.** Selecting a unit starts a measurement exactly when its entry is found, the path of its trace is
known, the freshness of the trace could be checked and the user answered that the trace should be measured; clang is then run
with the arguments of that entry in its directory. -/
theorem c77_measure_iff (command : Command) (trace : List Comp) :
    wizard t limit cwd fs clangpp granularity user db unit = .measure command trace ↔
      ∃ e, selectUnit t limit cwd db unit = .entry e ∧ tracePath t limit cwd e = some trace ∧
        (∃ f p, e.derivedFreshness fs (pathOf trace) = .ok f ∧ Prompt.fromFreshness f false = some p ∧ Prompt.AskedFor p user) ∧
        command.program = clangpp ∧ command.dir = e.directory ∧
        command.args = "-ftime-trace".toList ::
          ((granularity.map fun g => "-ftime-trace-granularity=".toList ++ g).toList ++ e.words.drop 1) := by
  unfold wizard
  cases hs : selectUnit t limit cwd db unit with
  | unresolved => simp
  | noEntry => simp
  | entry e =>
    simp only [Selected.entry.injEq, exists_eq_left']
    unfold fromEntry
    cases ht : tracePath t limit cwd e with
    | none => simp
    | some tr =>
      have key := Prompt.c45_trace_measure_iff (e.derivedFreshness fs (pathOf tr)) user
      have hcmd : traceCommand clangpp granularity e = command ↔ command.program = clangpp ∧ command.dir = e.directory ∧
          command.args = "-ftime-trace".toList ::
          ((granularity.map fun g => "-ftime-trace-granularity=".toList ++ g).toList ++ e.words.drop 1) := by
        obtain ⟨a, b, c⟩ := command
        simp only [traceCommand, Command.mk.injEq, Entry.args]
        constructor
        · rintro ⟨rfl, rfl, rfl⟩; exact ⟨rfl, rfl, rfl⟩
        · rintro ⟨rfl, rfl, rfl⟩; exact ⟨rfl, rfl, rfl⟩
      simp only
      rw [← hcmd]
      cases hw : Prompt.showWizard (e.derivedFreshness fs (pathOf tr)) user with
      | measure =>
        simp only [Outcome.measure.injEq, Option.some.injEq]
        constructor
        · rintro ⟨rfl, rfl⟩; exact ⟨rfl, key.1 hw, rfl⟩
        · rintro ⟨rfl, -, rfl⟩; exact ⟨rfl, rfl⟩
      | _ =>
        simp only [reduceCtorEq, Option.some.injEq, false_iff]
        rintro ⟨rfl, hf, -⟩
        rw [key.2 hf] at hw; cases hw

/-- **C77, loading.** A trace is shown without measuring only if it is the trace of the unit's entry and it exists. -/
theorem c77_load (trace : List Comp) (h : wizard t limit cwd fs clangpp granularity user db unit = .load trace) :
    ∃ e, selectUnit t limit cwd db unit = .entry e ∧ tracePath t limit cwd e = some trace ∧
      (∃ time, fs.mtime (pathOf trace) = .ok time) ∧
      ∃ f, e.derivedFreshness fs (pathOf trace) = .ok f ∧
        (Prompt.Unquestioned f false ∨ ∃ p b, Prompt.fromFreshness f false = some p ∧ user p = some b ∧ p.label b = "Reuse") := by
  unfold wizard at h
  cases hs : selectUnit t limit cwd db unit with
  | unresolved => rw [hs] at h; cases h
  | noEntry => rw [hs] at h; cases h
  | entry e =>
    rw [hs] at h
    simp only at h
    unfold fromEntry at h
    cases ht : tracePath t limit cwd e with
    | none => rw [ht] at h; cases h
    | some tr =>
      rw [ht] at h
      simp only at h
      cases hw : Prompt.showWizard (e.derivedFreshness fs (pathOf tr)) user with
      | load =>
        rw [hw] at h
        simp only [Outcome.load.injEq] at h
        subst h
        cases hf : e.derivedFreshness fs (pathOf tr) with
        | error x => rw [hf] at hw; cases hw
        | ok f =>
          have hex := (c28_derived e fs (pathOf tr)).2.2.2 f hf
          rw [hf] at hw
          simp only [Prompt.showWizard] at hw
          cases hp : Prompt.fromFreshness f false with
          | none =>
            have hu := (Prompt.fromFreshness_none f false).1 hp
            refine ⟨e, rfl, ht, hex.1 ?_, f, hf, .inl hu⟩
            obtain ⟨a, rfl, -⟩ := hu; rfl
          | some p =>
            rw [hp] at hw
            simp only at hw
            cases hb : user p with
            | none => rw [hb] at hw; cases hw
            | some b =>
              rw [hb] at hw
              simp only at hw
              split at hw
              · cases hw
              · rename_i hsc
                split at hw
                · rename_i he
                  refine ⟨e, rfl, ht, hex.1 he, f, hf, .inr ⟨p, b, hp, hb, ?_⟩⟩
                  rcases Prompt.fromFreshness_cases f false p hp with ⟨rfl, -⟩ | ⟨-, a1, a2, a3⟩
                  · cases he
                  · cases b with
                    | default => exact a1
                    | other => simp [Prompt.CreatePrompt.shouldCreate, a3] at hsc
                · cases hw
      | measure => rw [hw] at h; cases h
      | errorDialog => rw [hw] at h; cases h
      | nothing => rw [hw] at h; cases h

/-- The unit's path is empty or leads to nothing in the working directory. -/
def LeadsNowhere (t : Tree) (limit : Nat) (cwd : List Name) (unit : Name) : Prop :=
  pathComponents unit = [] ∨ resolve t limit cwd (pathComponents unit) = none

/-- **C77, error dialogs.** Each of the four error dialogs is shown exactly for its own reason: the path of the unit leads
nowhere; it leads somewhere, but not to a file of the compilation database; the entry does not tell where the trace is;
the freshness of the trace could not be checked. -/
theorem c77_dialogs :
    (wizard t limit cwd fs clangpp granularity user db unit = .unresolved ↔ LeadsNowhere t limit cwd unit) ∧
    (wizard t limit cwd fs clangpp granularity user db unit = .noEntry ↔
      pathComponents unit ≠ [] ∧ ∃ loc, resolve t limit cwd (pathComponents unit) = some loc ∧
        db.entry (pathOf (.rootDir :: loc.map .normal)) = none) ∧
    (wizard t limit cwd fs clangpp granularity user db unit = .noOutput ↔
      ∃ e, selectUnit t limit cwd db unit = .entry e ∧ tracePath t limit cwd e = none) ∧
    (wizard t limit cwd fs clangpp granularity user db unit = .freshnessError ↔
      ∃ e trace err, selectUnit t limit cwd db unit = .entry e ∧ tracePath t limit cwd e = some trace ∧
        e.derivedFreshness fs (pathOf trace) = .error err) := by
  have hfe : ∀ e, fromEntry t limit cwd fs clangpp granularity user e ≠ .unresolved ∧
      fromEntry t limit cwd fs clangpp granularity user e ≠ .noEntry ∧
      (fromEntry t limit cwd fs clangpp granularity user e = .noOutput ↔ tracePath t limit cwd e = none) ∧
      (fromEntry t limit cwd fs clangpp granularity user e = .freshnessError ↔
        ∃ trace err, tracePath t limit cwd e = some trace ∧ e.derivedFreshness fs (pathOf trace) = .error err) := by
    intro e
    unfold fromEntry
    cases ht : tracePath t limit cwd e with
    | none => simp
    | some tr =>
      simp only [Option.some.injEq, exists_eq_left', reduceCtorEq]
      cases hf : e.derivedFreshness fs (pathOf tr) with
      | error x => simp [Prompt.showWizard, hf]
      | ok f =>
        have hx : Prompt.showWizard (.ok f) user ≠ .errorDialog := by
          unfold Prompt.showWizard
          dsimp only
          split
          · simp
          · split
            · simp
            · split
              · simp
              · split <;> simp
        cases hw : Prompt.showWizard (.ok f) user <;> simp_all
  have hu : selectUnit t limit cwd db unit = .unresolved ↔ LeadsNowhere t limit cwd unit := by
    unfold selectUnit canonicalize LeadsNowhere
    by_cases hp : pathComponents unit = []
    · simp [hp]
    · rw [if_neg hp]
      cases resolve t limit cwd (pathComponents unit) with
      | none => simp
      | some loc => simp only [Option.map_some, hp, false_or, reduceCtorEq, iff_false]; split <;> simp
  have hn : selectUnit t limit cwd db unit = .noEntry ↔
      pathComponents unit ≠ [] ∧ ∃ loc, resolve t limit cwd (pathComponents unit) = some loc ∧
        db.entry (pathOf (.rootDir :: loc.map .normal)) = none := by
    unfold selectUnit canonicalize
    by_cases hp : pathComponents unit = []
    · simp [hp]
    · rw [if_neg hp]
      cases resolve t limit cwd (pathComponents unit) with
      | none => simp
      | some loc =>
        simp only [Option.map_some, ne_eq, hp, not_false_eq_true, true_and, Option.some.injEq, exists_eq_left']
        cases db.entry (pathOf (.rootDir :: loc.map .normal)) <;> simp
  rw [← hu, ← hn]
  unfold wizard
  cases hs : selectUnit t limit cwd db unit with
  | unresolved => simp
  | noEntry => simp
  | entry e =>
    obtain ⟨h1, h2, h3, h4⟩ := hfe e
    simp only [h1, h2, h3, h4, Selected.entry.injEq, exists_eq_left', reduceCtorEq, true_and]
    exact ⟨fun ⟨a, b, h⟩ => ⟨e, a, b, rfl, h⟩, fun ⟨e', a, b, he, h⟩ => by cases he; exact ⟨a, b, h⟩⟩

end

/-- **C77, from a profile to a trace.** A unit measured in a directory, when selected there: the user who takes the default
answer is shown the trace of the unit's own entry if there is one, and has it measured otherwise, by running clang with the
arguments of that entry. -/
theorem c77_unit_to_trace (t : Tree) (limit : Nat) (cwd f : List Name) (hc : GoodNames cwd) (hd : RealDir t cwd) (hf : GoodNames f)
    (hr : RealFile t f) (db : Db) (e : Entry) (hpath : pathComponents e.file = pathComponents (absPath f))
    (he : db.entry e.file = some e) (fs : Verif.Build.Fs) (clangpp : Name) (granularity : Option Name) (trace : List Comp)
    (htrace : tracePath t limit cwd e = some trace) :
    let result := wizard t limit cwd fs clangpp granularity (fun _ => some .default) db (unitPath (some (absPath cwd)) e.file)
    (fs.mtime (pathOf trace) = .error .notFound → result = .measure (traceCommand clangpp granularity e) trace) ∧
    (∀ t1 t2 t3, fs.mtime (pathOf trace) = .ok t1 → fs.mtime databaseFile = .ok t2 → fs.mtime e.file = .ok t3 →
      result = .load trace) := by
  rw [databaseFile_eq]
  intro result
  have hres : result = fromEntry t limit cwd fs clangpp granularity (fun _ => some .default) e := by
    show wizard _ _ _ _ _ _ _ _ _ = _
    unfold wizard
    rw [c76_found t limit cwd f hc hd hf hr db e hpath he]
  rw [hres]
  unfold fromEntry
  rw [htrace]
  constructor
  · intro hn
    have : e.derivedFreshness fs (pathOf trace) = .ok .nonexistent := (c28_derived e fs (pathOf trace)).1.2 hn
    simp only [this]; rfl
  · intro t1 t2 t3 h1 h2 h3
    have hok : ∃ fr, productFreshness fs [e.file] (pathOf trace) = .ok fr := by
      by_cases h4 : t1 < t2 ∨ t1 < t3
      · exact ⟨_, ((c28_derived e fs (pathOf trace)).2.2.1 t1 t2 t3 h1 h2 h3).2 h4⟩
      · exact ⟨_, ((c28_derived e fs (pathOf trace)).2.1 _).2 ⟨t1, t2, t3, h1, h2, h3, by omega, by omega, rfl⟩⟩
    obtain ⟨fr, hfr⟩ := hok
    have := (Prompt.c45_default_reuses fs [e.file] (pathOf trace) fr hfr t1 h1 false false).1
    unfold Entry.derivedFreshness
    simp only [this]

/-! ## Example: `/s/a.cpp` compiled in `/b/x`, which is reached through the link `/l` -/

def exTree : Tree := fun p =>
  if p = ["s".toList] then some .dir
  else if p = ["b".toList] then some .dir
  else if p = ["b".toList, "x".toList] then some .dir
  else if p = ["b".toList, "x".toList, "o".toList] then some .dir
  else if p = ["s".toList, "a.cpp".toList] then some .file
  else if p = ["l".toList] then some (.link [.rootDir, .normal "b".toList, .normal "x".toList])
  else none

def exEntry : Entry :=
  ⟨"/l".toList, ["c++".toList, "-o".toList, "o/a.cpp.o".toList, "/s/a.cpp".toList], "/s/a.cpp".toList, none⟩

theorem ex_cwd : RealDir exTree ["b".toList] := by
  intro p s h hne
  cases p with
  | nil => exact absurd rfl hne
  | cons a p =>
    simp only [List.cons_append, List.cons.injEq] at h
    have : p = [] := by cases p with | nil => rfl | cons => simp at h
    rw [this, ← h.1]; rfl

/-- Clang follows the link and writes `/b/x/o/a.cpp.json`. -/
theorem ex_clang : ClangWrites exTree 1 0 ["b".toList] (pathComponents exEntry.directory) (pathComponents "o/a.cpp.o".toList)
    ["b".toList, "x".toList, "o".toList, "a.cpp.json".toList] := by
  have h1 : pathComponents exEntry.directory = [.rootDir, .normal "l".toList] := by decide +kernel
  have h2 : pathComponents "o/a.cpp.o".toList = [.normal "o".toList] ++ [.normal "a.cpp.o".toList] := by decide +kernel
  refine ⟨["b".toList, "x".toList], ["b".toList, "x".toList, "o".toList], [.normal "o".toList], "a.cpp.o".toList, "a.cpp.json".toList,
    ?_, .inr rfl, h2, ?_, .inr rfl, TraceName.ext "a.cpp".toList "o".toList (by simp) (by decide +kernel), rfl⟩
  · rw [h1, resolve, resolve_link (target := [.rootDir, .normal "b".toList, .normal "x".toList]) (by rfl)]
    rw [List.append_nil, resolve, resolve_dir (by rfl), resolve_dir (by rfl), resolve]; rfl
  · rw [resolve_dir (by rfl), resolve]; rfl

/-- Non-vacuity of `c77_trace_place`. -/
example : ∃ trace, tracePath exTree 40 ["b".toList] exEntry = some trace ∧
    LeadsTo exTree 40 ["b".toList] trace ["b".toList, "x".toList, "o".toList, "a.cpp.json".toList] :=
  c77_trace_place exTree 40 1 0 (by omega) ["b".toList] ex_cwd exEntry "o/a.cpp.o".toList rfl
    (OutputArg.mk "c++".toList [] "o/a.cpp.o".toList ["/s/a.cpp".toList] (by simp)) (by decide +kernel) _ ex_clang

/-- Non-vacuity of `c77_unit_to_trace`: with no trace, it is measured. -/
example (fs : Verif.Build.Fs) : ∃ trace, tracePath exTree 40 ["b".toList] exEntry = some trace ∧
    (fs.mtime (pathOf trace) = .error .notFound →
      wizard exTree 40 ["b".toList] fs "clang++".toList none (fun _ => some .default) (Db.fromEntries [exEntry]) "../s/a.cpp".toList =
        .measure ⟨"clang++".toList, ["-ftime-trace".toList, "-o".toList, "o/a.cpp.o".toList, "/s/a.cpp".toList], "/l".toList⟩ trace) := by
  obtain ⟨trace, h, -⟩ := c77_trace_place exTree 40 1 0 (by omega) ["b".toList] ex_cwd exEntry "o/a.cpp.o".toList rfl
    (OutputArg.mk "c++".toList [] "o/a.cpp.o".toList ["/s/a.cpp".toList] (by simp)) (by decide +kernel) _ ex_clang
  refine ⟨trace, h, fun hn => ?_⟩
  have := (c77_unit_to_trace exTree 40 ["b".toList] ["s".toList, "a.cpp".toList] (by simp [GoodNames, ProperName]) ex_cwd
    (by simp [GoodNames, ProperName]) ?_ (Db.fromEntries [exEntry]) exEntry (by decide +kernel) (by decide +kernel) fs "clang++".toList
    none trace h).1 hn
  · rw [show unitPath (some (absPath ["b".toList])) exEntry.file = "../s/a.cpp".toList by decide +kernel] at this
    rw [this]; rfl
  · refine ⟨["s".toList], "a.cpp".toList, rfl, ?_, rfl⟩
    intro p s h hne
    cases p with
    | nil => exact absurd rfl hne
    | cons a p =>
      simp only [List.cons_append, List.cons.injEq] at h
      have : p = [] := by cases p with | nil => rfl | cons => simp at h
      rw [this, ← h.1]; rfl

end Verif.Tui.Wizard
