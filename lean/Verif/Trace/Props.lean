import Verif.Trace.Args
import Verif.Tree.Props

/-! # Properties C07–C10: loading a whole trace -/

set_option autoImplicit false
set_option linter.unusedSectionVars false
set_option linter.unusedSimpArgs false
set_option linter.unusedTactic false
set_option linter.unreachableTactic false

namespace Verif.Trace

variable {F : Type} [LinearOrder F] [Zero F] [One F] [Add F] [Sub F]

/-! ## Specification vocabulary -/

/-- Complete event with a timestamp above one microsecond. -/
def isActivity : Event F → Bool
  | .x d _ _ _ => decide (1 < d.ts)
  | _ => false

/-- Any other complete event. -/
def isGlobal : Event F → Bool
  | .x d _ _ _ => !decide (1 < d.ts)
  | _ => false

/-- `s` records the activity announced by `ev`: same name, detail, start and duration, and an end
equal to start plus duration. -/
def RecordsActivity (ev : Event F) (s : Tree.Stat F F Activity) : Prop :=
  ∃ d dur name, ev = .x d dur none none ∧ d.name = some name ∧ s.act.name = name ∧
    s.act.detail = detailOf d.args ∧ s.start = d.ts ∧ s.dur = dur ∧ s.stop = d.ts + dur

/-- `entry` records the statistic announced by `ev`. -/
def RecordsGlobal (ev : Event F) (entry : String × GlobalStat F) : Prop :=
  ∃ d dur args avg, ev = .x d dur none none ∧ d.name = some ("Total " ++ entry.1) ∧
    d.args = some args ∧ parseGlobalArgs none none args = .ok (entry.2.count, avg) ∧
    entry.2.total = dur

/-- Process ids carried by an event. -/
def pidsOf : Event F → List Int
  | .x d _ _ _ => [d.pid]
  | .m (.processName p _ _ _ _) => [p]
  | .m (.threadName _ _ _ (some p) _) => [p]
  | _ => []

/-- Process name announced by an event. -/
def processNameOf : Event F → List String
  | .m (.processName _ n _ _ _) => [n]
  | _ => []

/-- Thread name announced by an event. -/
def threadNameOf : Event F → List String
  | .m (.threadName _ n _ _ _) => [n]
  | _ => []

/-- Complete, process name or thread name event. -/
def isExpected : Event F → Bool
  | .x _ _ _ _ => true
  | .m (.processName ..) => true
  | .m (.threadName ..) => true
  | _ => false

/-! ## Loop invariant -/

structure RunInv (tmin : F) (st : St F) (done : List (Event F)) : Prop where
  acts : ∃ stats, List.Forall₂ RecordsActivity (done.filter isActivity) stats ∧
    Tree.insertAll (Tree.empty tmin) stats = .ok st.builder
  globs : List.Forall₂ RecordsGlobal (done.filter isGlobal) st.globals
  globsNodup : (st.globals.map (·.1)).Nodup
  procs : done.flatMap processNameOf = st.processName.toList
  threads : done.flatMap threadNameOf = st.threadName.toList
  pid : st.pid = (done.flatMap pidsOf).head?
  pidEq : ∀ p ∈ done.flatMap pidsOf, st.pid = some p
  expected : done.all isExpected

theorem mergePid_ok {cur r : Option Int} {p : Int} (h : mergePid (F := F) cur p = .ok r) :
    r = some p ∧ (cur = none ∨ cur = some p) := by
  unfold mergePid at h
  split at h
  · simp at h; exact ⟨h.symm, .inl rfl⟩
  · split at h
    · rename_i hq; subst hq; simp at h; exact ⟨h.symm, .inr rfl⟩
    · simp at h

theorem insertAll_snoc {tmin : F} {α : Type} (b b' b'' : Tree.Builder F F α) (ys y)
    (h1 : Tree.insertAll b ys = .ok b') (h2 : Tree.insert b' y = .ok b'') :
    Tree.insertAll b (ys ++ [y]) = .ok b'' := by
  induction ys generalizing b with
  | nil => simp [Tree.insertAll] at h1; subst h1; simp [Tree.insertAll, h2]
  | cons x xs ih =>
    simp only [Tree.insertAll, List.cons_append] at h1 ⊢
    cases hx : Tree.insert b x with
    | error e => rw [hx] at h1; simp at h1
    | ok b1 => rw [hx] at h1; exact ih b1 h1

theorem parseStat_ok {cc : CharClass} {ev : Event F} {s : Tree.Stat F F Activity}
    (h : parseStat cc ev = .ok s) : RecordsActivity ev s ∧
      ∃ d dur name, ev = .x d dur none none ∧ d.name = some name ∧
        parseActivity cc name d.args = .ok s.act := by
  unfold parseStat at h
  split at h <;> try (simp at h; done)
  rename_i pid tid ts name args dur
  split at h <;> try (simp at h; done)
  split at h <;> try (simp at h; done)
  rename_i a ha
  cases h
  have := parseActivity_ok ha
  exact ⟨⟨_, dur, name, rfl, rfl, this.1, this.2.1, rfl, rfl, rfl⟩, _, dur, name, rfl, rfl, ha⟩

theorem parseGlobal_ok {ev : Event F} {e : String × GlobalStat F}
    (h : parseGlobal ev = .ok e) : RecordsGlobal ev e := by
  unfold parseGlobal at h
  split at h <;> try (simp at h; done)
  split at h <;> try (simp at h; done)
  split at h <;> try (simp at h; done)
  rename_i hs
  split at h <;> try (simp at h; done)
  rename_i ha
  cases h
  rw [stripPrefix_iff] at hs
  exact ⟨_, _, _, _, rfl, by rw [hs], rfl, ha, rfl⟩

theorem pid_step {st : St F} {done : List (Event F)} {p : Int} {r : Option Int}
    (h1 : st.pid = (done.flatMap pidsOf).head?) (h2 : ∀ p ∈ done.flatMap pidsOf, st.pid = some p)
    (hm : mergePid (F := F) st.pid p = .ok r) :
    r = (done.flatMap pidsOf ++ [p]).head? ∧ ∀ q ∈ done.flatMap pidsOf ++ [p], r = some q := by
  obtain ⟨rfl, h3⟩ := mergePid_ok hm
  constructor
  · rw [List.head?_append, ← h1]
    rcases h3 with h3 | h3 <;> rw [h3] <;> rfl
  · intro q hq
    rcases List.mem_append.1 hq with hq | hq
    · have := h2 q hq
      rw [this] at h3
      rcases h3 with h3 | h3
      · simp at h3
      · exact h3.symm
    · simp at hq; rw [hq]

theorem forall₂_snoc {α β : Type} {R : α → β → Prop} {l : List α} {m : List β} {a : α} {b : β}
    (h : List.Forall₂ R l m) (hab : R a b) : List.Forall₂ R (l ++ [a]) (m ++ [b]) :=
  List.rel_append h (.cons hab .nil)

theorem step_inv {cc : CharClass} {tmin : F} {st st' : St F} {done : List (Event F)}
    {ev : Event F} (h : RunInv tmin st done) (hs : step cc st ev = .ok st') :
    RunInv tmin st' (done ++ [ev]) := by
  have hnil : ∀ (f : Event F → Bool), f ev = false →
      (done ++ [ev]).filter f = done.filter f := by
    intro f hf; simp [List.filter_append, hf]
  have hone : ∀ (f : Event F → Bool), f ev = true →
      (done ++ [ev]).filter f = done.filter f ++ [ev] := by
    intro f hf; simp [List.filter_append, hf]
  unfold step at hs
  split at hs
  · -- complete event
    rename_i d dur td es
    split at hs <;> try (simp at hs; done)
    rename_i pid hm
    obtain ⟨hp1, hp2⟩ := pid_step h.pid h.pidEq hm
    split at hs
    · rename_i hts
      split at hs <;> try (simp at hs; done)
      rename_i s hps
      split at hs <;> try (simp at hs; done)
      rename_i b hins
      cases hs
      obtain ⟨stats, ha1, ha2⟩ := h.acts
      refine ⟨⟨stats ++ [s], ?_, insertAll_snoc (tmin := tmin) _ _ _ _ _ ha2 hins⟩, ?_,
        h.globsNodup, ?_, ?_, ?_, ?_, ?_⟩
      · rw [hone _ (by simp [isActivity, hts])]
        exact forall₂_snoc ha1 (parseStat_ok hps).1
      · rw [hnil _ (by simp [isGlobal, hts])]; exact h.globs
      · simp [List.flatMap_append, h.procs, processNameOf]
      · simp [List.flatMap_append, h.threads, threadNameOf]
      · rw [List.flatMap_append]; simpa [pidsOf] using hp1
      · rw [List.flatMap_append]; simpa [pidsOf] using hp2
      · have := h.expected; simp_all [isExpected]
    · rename_i hts
      split at hs <;> try (simp at hs; done)
      rename_i name stat hpg
      split at hs <;> try (simp at hs; done)
      rename_i hlk
      cases hs
      have hnotin : name ∉ st.globals.map (·.1) := by
        intro hin
        obtain ⟨kv, hkv, rfl⟩ := List.mem_map.1 hin
        have := List.lookup_eq_none_iff.1 hlk kv hkv
        simp at this
      refine ⟨?_, ?_, ?_, ?_, ?_, ?_, ?_, ?_⟩
      · rw [hnil _ (by simp [isActivity, hts])]; exact h.acts
      · rw [hone _ (by simp only [isGlobal, hts, decide_false, Bool.not_false])]
        exact forall₂_snoc h.globs (parseGlobal_ok hpg)
      · simp only [List.map_append, List.map_cons, List.map_nil]
        rw [List.nodup_append]
        refine ⟨h.globsNodup, by simp, ?_⟩
        rintro a ha b hb rfl
        simp at hb
        subst hb
        exact hnotin ha
      · simp [List.flatMap_append, h.procs, processNameOf]
      · simp [List.flatMap_append, h.threads, threadNameOf]
      · rw [List.flatMap_append]; simpa [pidsOf] using hp1
      · rw [List.flatMap_append]; simpa [pidsOf] using hp2
      · have := h.expected; simp_all [isExpected]
  · -- metadata
    rename_i m
    split at hs
    · rename_i p n ex td op
      split at hs <;> try (simp at hs; done)
      rename_i pid hm
      obtain ⟨hp1, hp2⟩ := pid_step h.pid h.pidEq hm
      split at hs <;> try (simp at hs; done)
      rename_i n' hn
      split at hs <;> try (simp at hs; done)
      rename_i hnone
      cases hs
      rw [c13_process_name_iff] at hn
      obtain ⟨_, _, hn, -⟩ := hn
      cases hn
      refine ⟨?_, ?_, h.globsNodup, ?_, ?_, ?_, ?_, ?_⟩
      · rw [hnil _ rfl]; exact h.acts
      · rw [hnil _ rfl]; exact h.globs
      · rw [List.flatMap_append, h.procs, hnone]; rfl
      · simp [List.flatMap_append, h.threads, threadNameOf]
      · rw [List.flatMap_append]; simpa [pidsOf] using hp1
      · rw [List.flatMap_append]; simpa [pidsOf] using hp2
      · have := h.expected; simp_all [isExpected]
    · rename_i td n ex p op
      split at hs <;> try (simp at hs; done)
      rename_i pid hm
      split at hs <;> try (simp at hs; done)
      rename_i n' hn
      split at hs <;> try (simp at hs; done)
      rename_i hnone
      cases hs
      rw [c13_thread_name_iff] at hn
      obtain ⟨_, hn⟩ := hn
      cases hn
      simp only [mergeOpt] at hm
      obtain ⟨hp1, hp2⟩ := pid_step h.pid h.pidEq hm
      refine ⟨?_, ?_, h.globsNodup, ?_, ?_, ?_, ?_, ?_⟩
      · rw [hnil _ rfl]; exact h.acts
      · rw [hnil _ rfl]; exact h.globs
      · simp [List.flatMap_append, h.procs, processNameOf]
      · rw [List.flatMap_append, h.threads, hnone]; rfl
      · rw [List.flatMap_append]; simpa [pidsOf] using hp1
      · rw [List.flatMap_append]; simpa [pidsOf] using hp2
      · have := h.expected; simp_all [isExpected]
    · simp at hs
  · simp at hs

theorem run_inv {cc : CharClass} {tmin : F} (evs : List (Event F)) : ∀ {st st' : St F}
    {done : List (Event F)}, RunInv tmin st done → run cc st evs = .ok st' →
    RunInv tmin st' (done ++ evs) := by
  induction evs with
  | nil => intro st st' done h hr; simp [run] at hr; subst hr; simpa using h
  | cons ev evs ih =>
    intro st st' done h hr
    unfold run at hr
    split at hr
    · simp at hr
    · rename_i st1 hs
      have := ih (step_inv h hs) hr
      simpa using this

theorem init_inv (tmin : F) : RunInv tmin (init tmin) [] :=
  ⟨⟨[], .nil, rfl⟩, .nil, .nil, rfl, rfl, rfl, by simp, rfl⟩

theorem fromDoc_ok {cc : CharClass} {tmin : F} {doc : Doc F} {tr : ClangTrace F}
    (h : fromDoc cc tmin doc = .ok tr) :
    ∃ st, RunInv tmin st doc.events ∧ st.processName = some tr.processName ∧
      st.threadName = tr.threadName ∧ st.globals = tr.globals ∧
      tr.pid = st.pid.filter (fun p => decide (p > 1)) ∧ Tree.build st.builder = .ok tr.tree ∧
      beginningOfTime doc.extra = .ok tr.beginningOfTime := by
  unfold fromDoc at h
  split at h <;> try (simp at h; done)
  split at h <;> try (simp at h; done)
  rename_i bot hb
  split at h <;> try (simp at h; done)
  split at h <;> try (simp at h; done)
  rename_i st hr
  split at h <;> try (simp at h; done)
  rename_i name hn
  split at h <;> try (simp at h; done)
  rename_i t ht
  cases h
  exact ⟨st, by simpa using run_inv _ (init_inv tmin) hr, hn, rfl, rfl, rfl, ht, hb⟩

/-! Running example. -/

def exCc : CharClass := ⟨Char.isUpper, Char.isAlphanum⟩

def exEvents : List (Event Int) := [
  .x ⟨7, 7, 2, some "Source", none, none, some [("detail", .str "/a.h")], none⟩ 3 none none,
  .x ⟨7, 7, 2, some "Frontend", none, none, none, none⟩ 9 none none,
  .x ⟨7, 8, 0, some "Total Frontend", none, none,
    some [("count", .num (some 1) 1), ("avg ms", .num (some 9) 9)], none⟩ 9 none none,
  .m (.processName 7 "clang" [] (some 7) ⟨some [], some 0, none⟩)]

def exDoc : Doc Int := ⟨exEvents, true, []⟩

theorem exDoc_ok : ∃ tr, fromDoc exCc 0 exDoc = .ok tr := by
  have h : ∃ b, fromDoc exCc 0 exDoc = .ok b := by
    simp [fromDoc, exDoc, exEvents, run, step, mergePid, parseStat, parseActivity, activities,
      List.lookup, parseDetailArg, parseEmptyArgs, Tree.insert, Tree.scan, init, Tree.empty,
      parseGlobal, parseGlobalArgs, JVal.asU64, JVal.asF64, stripPrefix, parseProcessName,
      Tree.build, Tree.rootScan, beginningOfTime, inferFromDetail, Tree.nonZero]
  exact h

/-! ## C07 -/

/-- **C07** on success the tree is the one built from the activity events, in file order, each
recorded with its own name, detail, start, duration and end; `all_activities()` lists exactly
these, so all of C01–C06 apply to them. -/
theorem c07_activities_kept {cc : CharClass} {tmin : F} {doc : Doc F} {tr : ClangTrace F}
    (h : fromDoc cc tmin doc = .ok tr) :
    ∃ stats, List.Forall₂ RecordsActivity (doc.events.filter isActivity) stats ∧
      Tree.load tmin stats = .ok tr.tree ∧
      Tree.allActivities tr.tree = List.range stats.length ∧
      ∀ i, Tree.statOf tr.tree i = stats[i]? := by
  obtain ⟨st, hi, -, -, -, -, hb, -⟩ := fromDoc_ok h
  obtain ⟨stats, h1, h2⟩ := hi.acts
  have hl : Tree.load tmin stats = .ok tr.tree := by rw [Tree.load, h2]; exact hb
  exact ⟨stats, h1, hl, Tree.c01_contents hl⟩

/-- **C07** on success the statistics table holds exactly one entry per other complete event, and
each such event's statistic is retrieved under its name. -/
theorem c07_globals_kept {cc : CharClass} {tmin : F} {doc : Doc F} {tr : ClangTrace F}
    (h : fromDoc cc tmin doc = .ok tr) :
    List.Forall₂ RecordsGlobal (doc.events.filter isGlobal) tr.globals ∧
    (tr.globals.map (·.1)).Nodup ∧
    (∀ ev ∈ doc.events, isGlobal ev → ∃ n g, RecordsGlobal ev (n, g) ∧
      tr.globals.lookup n = some g) ∧
    (∀ n g, tr.globals.lookup n = some g → ∃ ev ∈ doc.events, isGlobal ev ∧
      RecordsGlobal ev (n, g)) := by
  obtain ⟨st, hi, -, -, hg, -, -, -⟩ := fromDoc_ok h
  have h1 := hi.globs
  have h2 := hi.globsNodup
  rw [hg] at h1 h2
  have hlook : ∀ (l : List (String × GlobalStat F)), (l.map (·.1)).Nodup → ∀ n g,
      (n, g) ∈ l ↔ l.lookup n = some g := by
    intro l
    induction l with
    | nil => simp
    | cons kv l ih =>
      obtain ⟨k, v⟩ := kv
      intro hn n g
      simp only [List.map_cons, List.nodup_cons] at hn
      rw [List.lookup_cons]
      by_cases hnk : n = k
      · subst hnk
        simp only [beq_self_eq_true, Option.some.injEq, List.mem_cons,
          Prod.mk.injEq, true_and]
        constructor
        · rintro (h | h)
          · exact h.symm
          · exact absurd (List.mem_map.2 ⟨_, h, rfl⟩) hn.1
        · intro h; exact .inl h.symm
      · have : (n == k) = false := by simpa using hnk
        simp only [this, List.mem_cons, Prod.mk.injEq, hnk, false_and, false_or]
        exact ih hn.2 n g
  refine ⟨h1, h2, ?_, ?_⟩
  · intro ev hev hglob
    have hmem : ev ∈ doc.events.filter isGlobal := List.mem_filter.2 ⟨hev, hglob⟩
    obtain ⟨i, hi⟩ := List.mem_iff_getElem?.1 hmem
    have hlen := h1.length_eq
    obtain ⟨hil, rfl⟩ := List.getElem?_eq_some_iff.1 hi
    have hr := (List.forall₂_iff_get.1 h1).2 i hil (by omega)
    exact ⟨_, _, hr, (hlook _ h2 _ _).1 (List.get_mem _ _)⟩
  · intro n g hng
    have := (hlook _ h2 n g).2 hng
    obtain ⟨i, hi⟩ := List.mem_iff_getElem?.1 this
    have hlen := h1.length_eq
    obtain ⟨hil, hie⟩ := List.getElem?_eq_some_iff.1 hi
    have hr := (List.forall₂_iff_get.1 h1).2 i (by omega) hil
    have hmem : (doc.events.filter isGlobal)[i]'(by omega) ∈ doc.events.filter isGlobal :=
      List.getElem_mem _
    rw [List.mem_filter] at hmem
    refine ⟨_, hmem.1, hmem.2, ?_⟩
    simp only [List.get_eq_getElem] at hr
    rw [hie] at hr
    exact hr

/-- **C07** on success nothing was dropped: every event is an activity, a statistic, a process
name or a thread name. -/
theorem c07_nothing_dropped {cc : CharClass} {tmin : F} {doc : Doc F} {tr : ClangTrace F}
    (h : fromDoc cc tmin doc = .ok tr) (ev : Event F) (hev : ev ∈ doc.events) :
    isActivity ev ∨ isGlobal ev ∨ processNameOf ev ≠ [] ∨ threadNameOf ev ≠ [] := by
  obtain ⟨st, hi, -⟩ := fromDoc_ok h
  have := List.all_eq_true.1 hi.expected ev hev
  unfold isExpected at this
  split at this
  · rename_i d _ _ _
    by_cases ht : 1 < d.ts <;> simp [isActivity, isGlobal, ht]
  · exact .inr (.inr (.inl (by simp [processNameOf])))
  · exact .inr (.inr (.inr (by simp [threadNameOf])))
  · simp at this

example : ∃ tr, fromDoc exCc 0 exDoc = .ok tr ∧
    ∃ stats, List.Forall₂ RecordsActivity (exEvents.filter isActivity) stats ∧
      Tree.allActivities tr.tree = List.range stats.length := by
  obtain ⟨tr, h⟩ := exDoc_ok
  obtain ⟨stats, h1, -, h2, -⟩ := c07_activities_kept h
  exact ⟨tr, h, stats, h1, h2⟩
example : (exEvents.filter isActivity).length = 2 ∧ (exEvents.filter isGlobal).length = 1 := by
  decide

/-! ## C08 -/

/-- **C08** loading succeeds only if all process ids are equal; the reported pid is that id,
unless it is a placeholder not above 1. -/
theorem c08_one_pid {cc : CharClass} {tmin : F} {doc : Doc F} {tr : ClangTrace F}
    (h : fromDoc cc tmin doc = .ok tr) :
    ∃ p, (doc.events.flatMap pidsOf) ≠ [] ∧ (∀ q ∈ doc.events.flatMap pidsOf, q = p) ∧
      tr.pid = if 1 < p then some p else none := by
  obtain ⟨st, hi, hpn, -, -, hpid, -, -⟩ := fromDoc_ok h
  have hne : doc.events.flatMap pidsOf ≠ [] := by
    intro he
    have hp := hi.procs
    rw [hpn] at hp
    have hm : tr.processName ∈ doc.events.flatMap processNameOf := by rw [hp]; simp
    obtain ⟨ev, hev, hn⟩ := List.mem_flatMap.1 hm
    have := List.flatMap_eq_nil_iff.1 he ev hev
    unfold processNameOf at hn
    split at hn
    · simp [pidsOf] at this
    · simp at hn
  obtain ⟨p, hp⟩ := List.exists_mem_of_ne_nil _ hne
  have hpp := hi.pidEq p hp
  refine ⟨p, hne, ?_, ?_⟩
  · intro q hq
    have := hi.pidEq q hq
    rw [hpp] at this
    exact (Option.some.inj this).symm
  · rw [hpid, hpp]
    by_cases h1 : 1 < p <;> simp [Option.filter, h1]

/-- **C08** an inconsistent-pid error reports the first process id of the trace and the first one
that differs from it. -/
theorem c08_inconsistent {cc : CharClass} {tmin : F} {doc : Doc F} {a b : Int}
    (h : fromDoc cc tmin doc = .error (.inconsistentPid a b)) :
    a ≠ b ∧ ∃ l r, doc.events.flatMap pidsOf = a :: l ++ b :: r ∧ ∀ q ∈ l, q = a := by
  have key : ∀ (evs : List (Event F)) (st : St F) (done : List (Event F)), RunInv tmin st done →
      run cc st evs = .error (.inconsistentPid a b) →
      a ≠ b ∧ ∃ l r, (done ++ evs).flatMap pidsOf = a :: l ++ b :: r ∧ ∀ q ∈ l, q = a := by
    intro evs
    induction evs with
    | nil => intro st done _ hr; simp [run] at hr
    | cons ev evs ih =>
      intro st done hi hr
      unfold run at hr
      split at hr
      · rename_i e hs
        simp only [Except.error.injEq] at hr
        subst hr
        have hmerge : ∀ p, mergePid (F := F) st.pid p = .error (.inconsistentPid a b) →
            b = p ∧ st.pid = some a ∧ a ≠ b := by
          intro p hm
          unfold mergePid at hm
          split at hm
          · simp at hm
          · rename_i q hq
            split at hm
            · simp at hm
            · rename_i hne
              simp at hm
              obtain ⟨rfl, rfl⟩ := hm
              exact ⟨rfl, hq, hne⟩
        have hfin : ∀ p, pidsOf ev = [p] →
            mergePid (F := F) st.pid p = .error (.inconsistentPid a b) →
            a ≠ b ∧ ∃ l r, (done ++ ev :: evs).flatMap pidsOf = a :: l ++ b :: r ∧
              ∀ q ∈ l, q = a := by
          intro p hp hm
          obtain ⟨rfl, h2, h3⟩ := hmerge p hm
          refine ⟨h3, ?_⟩
          have h4 := hi.pid
          rw [h2] at h4
          rw [List.flatMap_append, List.flatMap_cons, hp]
          cases hd : done.flatMap pidsOf with
          | nil => rw [hd] at h4; simp at h4
          | cons x l =>
            rw [hd] at h4
            simp at h4
            subst h4
            refine ⟨l, evs.flatMap pidsOf, by simp, ?_⟩
            intro q hq
            have := hi.pidEq q (by rw [hd]; simp [hq])
            rw [h2] at this
            exact (Option.some.inj this).symm
        unfold step at hs
        split at hs
        · rename_i d dur td es
          split at hs
          · rename_i e hm
            simp only [Except.error.injEq] at hs
            subst hs
            exact hfin d.pid rfl hm
          · split at hs
            · split at hs <;> try (simp at hs; done)
              split at hs <;> simp at hs
            · split at hs <;> try (simp at hs; done)
              split at hs <;> simp at hs
        · split at hs
          · rename_i p _ _ _ _
            split at hs
            · rename_i e hm
              simp only [Except.error.injEq] at hs
              subst hs
              exact hfin p rfl hm
            · split at hs <;> try (simp at hs; done)
              split at hs <;> simp at hs
          · rename_i td n ex p op
            split at hs
            · rename_i e hm
              simp only [Except.error.injEq] at hs
              subst hs
              cases p with
              | none => simp [mergeOpt] at hm
              | some p => exact hfin p rfl hm
            · split at hs <;> try (simp at hs; done)
              split at hs <;> simp at hs
          · simp at hs
        · simp at hs
      · rename_i st1 hs
        have := ih st1 (done ++ [ev]) (step_inv hi hs) hr
        simpa using this
  unfold fromDoc at h
  split at h <;> try (simp at h; done)
  split at h
  · rename_i e he
    simp only [Except.error.injEq] at h
    subst h
    unfold beginningOfTime at he
    split at he <;> try (simp at he; done)
    split at he <;> simp at he
  · split at h <;> try (simp at h; done)
    split at h
    · rename_i e hr
      simp only [Except.error.injEq] at h
      subst h
      simpa using key _ _ [] (init_inv tmin) hr
    · split at h <;> try (simp at h; done)
      split at h <;> simp at h

example : fromDoc exCc 0 ⟨exEvents ++ [.m (.processName 9 "clang" [] (some 9)
    ⟨some [], some 0, none⟩)], true, []⟩ = .error (.inconsistentPid 7 9) := by
  simp [fromDoc, exEvents, run, step, mergePid, parseStat, parseActivity, activities,
      List.lookup, parseDetailArg, parseEmptyArgs, Tree.insert, Tree.scan, init, Tree.empty,
      parseGlobal, parseGlobalArgs, JVal.asU64, JVal.asF64, stripPrefix, parseProcessName,
      Tree.build, Tree.rootScan, beginningOfTime, inferFromDetail, Tree.nonZero]

/-! ## C09 -/

/-- **C09** loading succeeds only if exactly one process name event is present (its name is the
reported one), at most one thread name event is (ditto), and no statistic is repeated. -/
theorem c09_unique_names {cc : CharClass} {tmin : F} {doc : Doc F} {tr : ClangTrace F}
    (h : fromDoc cc tmin doc = .ok tr) :
    doc.events.flatMap processNameOf = [tr.processName] ∧
    doc.events.flatMap threadNameOf = tr.threadName.toList ∧
    ∀ (i j : Nat) (ei ej : Event F) (n : String) (gi gj : GlobalStat F), i < j →
      (doc.events.filter isGlobal)[i]? = some ei → (doc.events.filter isGlobal)[j]? = some ej →
      RecordsGlobal ei (n, gi) → ¬ RecordsGlobal ej (n, gj) := by
  obtain ⟨st, hi, hpn, htn, hg, -, -, -⟩ := fromDoc_ok h
  refine ⟨by rw [hi.procs, hpn]; rfl, by rw [hi.threads, htn], ?_⟩
  intro i j ei ej n gi gj hij hei hej hri hrj
  have h1 := hi.globs
  have h2 := hi.globsNodup
  obtain ⟨hil, rfl⟩ := List.getElem?_eq_some_iff.1 hei
  obtain ⟨hjl, rfl⟩ := List.getElem?_eq_some_iff.1 hej
  have hlen := h1.length_eq
  have r1 := (List.forall₂_iff_get.1 h1).2 i hil (by omega)
  have r2 := (List.forall₂_iff_get.1 h1).2 j hjl (by omega)
  have hname : ∀ {ev : Event F} {x y : String × GlobalStat F}, RecordsGlobal ev x →
      RecordsGlobal ev y → x.1 = y.1 := by
    rintro ev x y ⟨d, dur, args, avg, h1, h2, -⟩ ⟨d', dur', args', avg', h1', h2', -⟩
    rw [h1] at h1'
    cases h1'
    rw [h2] at h2'
    have := Option.some.inj h2'
    have := congrArg String.toList this
    simp only [String.toList_append, List.append_cancel_left_eq] at this
    exact String.toList_inj.1 this
  have e1 := hname r1 hri
  have e2 := hname r2 hrj
  simp only [List.get_eq_getElem] at e1 e2
  have := List.pairwise_iff_getElem.1 h2 i j (by simp; omega) (by simp; omega) hij
  simp only [List.getElem_map] at this
  exact this (by rw [e1, e2])

/-- **C09** a document without any process name event is rejected. -/
theorem c09_missing_process_name (cc : CharClass) (tmin : F) (doc : Doc F)
    (h : doc.events.flatMap processNameOf = []) : ∀ tr, fromDoc cc tmin doc ≠ .ok tr := by
  intro tr htr
  have := (c09_unique_names htr).1
  rw [h] at this
  simp at this

/-- **C09** after a prefix that loads, a second process name event with a consistent pid and the
expected shape is reported as a duplicate, naming both. -/
theorem c09_duplicate_process_name {cc : CharClass} {st : St F} {old n : String} {pid tid : Int}
    (hn : st.processName = some old) (hp : st.pid = none ∨ st.pid = some pid)
    (ht : (pid = 1 ∧ tid = 0) ∨ tid = pid) :
    step cc st (.m (.processName pid n [] (some tid) ⟨some [], some 0, none⟩)) =
      .error (.duplicateProcessName old n) := by
  have hparse := (c13_process_name_iff (F := F)
    (.processName pid n [] (some tid) ⟨some [], some 0, none⟩) n).2 ⟨pid, tid, rfl, ht⟩
  have hm : mergePid (F := F) st.pid pid = .ok (some pid) := by
    rcases hp with hp | hp <;> simp [mergePid, hp]
  simp only [step, hm, hparse, hn]

example : ∃ tr, fromDoc exCc 0 exDoc = .ok tr ∧ tr.processName = "clang" := by
  obtain ⟨tr, h⟩ := exDoc_ok
  have := (c09_unique_names h).1
  refine ⟨tr, h, ?_⟩
  have h2 : exDoc.events.flatMap processNameOf = ["clang"] := by decide
  rw [h2] at this
  exact (List.cons.inj this).1.symm

/-! ## C10 -/

/-- **C10** violated: an empty `traceEvents` list panics instead of being rejected. -/
theorem c10_empty_events_violated (cc : CharClass) (tmin : F) :
    fromDoc cc tmin ⟨[], true, []⟩ = .error .panic := by
  simp [fromDoc, beginningOfTime]

/-- **C10** violated: an activity with an empty detail string panics instead of being rejected or
accepted. -/
theorem c10_empty_detail_violated :
    fromDoc exCc (0 : Int) ⟨[.x ⟨7, 7, 2, some "Source", none, none,
      some [("detail", .str "")], none⟩ 3 none none], true, []⟩ = .error .panic := by
  have h := (infer_none_iff exCc "").2 rfl
  have hl : activities.lookup "Source" = some .filePathOrModule := by decide
  simp [fromDoc, run, step, mergePid, parseStat, parseActivity, hl, parseDetailArg, h, init,
    beginningOfTime]

/-- `ev` is an activity event whose only arg is an empty detail string. -/
def EmptyDetail (ev : Event F) : Prop :=
  ∃ d dur td es, ev = .x d dur td es ∧ d.args = some [("detail", .str "")]

/-- **C10** (corollary of `c10_panic_iff`, with the two violations above excluded) loading any other document returns a
trace or an error. -/
theorem c10_no_panic_when (cc : CharClass) (tmin : F) (doc : Doc F)
    (hne : doc.events ≠ []) (hd : ∀ ev ∈ doc.events, ¬ EmptyDetail ev) :
    fromDoc cc tmin doc ≠ .error .panic := by
  have hact : ∀ (name : String) (args : Option (Args F)),
      args ≠ some [("detail", .str "")] → parseActivity cc name args ≠ .panic := by
    intro name args hargs hp
    have hinf : ∀ d, parseDetailArg args = .ok d → inferFromDetail cc d ≠ none := by
      intro d hd hi
      rw [infer_none_iff] at hi
      subst hi
      exact hargs ((c11_detail_iff _ _).1 hd)
    unfold parseActivity at hp
    split at hp
    · split at hp
      · split at hp <;> simp at hp
      · split at hp <;> simp at hp
      · split at hp <;> simp at hp
      · split at hp
        · rename_i d hd
          split at hp
          · rename_i hi; exact hinf d hd hi
          · simp at hp
        · simp at hp
    · split at hp
      · rename_i d hd
        split at hp
        · rename_i hi; exact hinf d hd hi
        · simp at hp
      · simp at hp
      · simp at hp
  have hstep : ∀ (st : St F) (done : List (Event F)) (ev : Event F), RunInv tmin st done →
      ¬ EmptyDetail ev → step cc st ev ≠ .error .panic := by
    intro st done ev hi hev hs
    unfold step at hs
    split at hs
    · rename_i d dur td es
      split at hs
      · rename_i e hm
        simp only [Except.error.injEq] at hs
        subst hs
        unfold mergePid at hm
        split at hm <;> try (simp at hm; done)
        split at hm <;> simp at hm
      · split at hs
        · split at hs
          · rename_i hp
            unfold parseStat at hp
            split at hp <;> try (simp at hp; done)
            rename_i heq
            split at hp <;> try (simp at hp; done)
            split at hp <;> try (simp at hp; done)
            rename_i ha
            cases heq
            refine hact _ _ ?_ ha
            intro hargs
            exact hev ⟨_, _, _, _, rfl, hargs⟩
          · simp at hs
          · rename_i s hp
            split at hs <;> try (simp at hs; done)
            rename_i hins
            obtain ⟨stats, -, h2⟩ := hi.acts
            have := Tree.c06_no_panic tmin (stats ++ [s])
            refine this ?_
            have hsn : ∀ (ys : List (Tree.Stat F F Activity)) (b b' : Tree.Builder F F Activity),
                Tree.insertAll b ys = .ok b' → Tree.insert b' s = .error .panic →
                Tree.insertAll b (ys ++ [s]) = .error .panic := by
              intro ys
              induction ys with
              | nil => intro b b' h1 h2; simp [Tree.insertAll] at h1; subst h1
                       simp [Tree.insertAll, h2]
              | cons y ys ih =>
                intro b b' h1 h2
                simp only [Tree.insertAll, List.cons_append] at h1 ⊢
                cases hx : Tree.insert b y with
                | error e => rw [hx] at h1; simp at h1
                | ok b1 => rw [hx] at h1; exact ih b1 b' h1 h2
            rw [Tree.load, hsn _ _ _ h2 hins]
        · split at hs <;> try (simp at hs; done)
          split at hs <;> simp at hs
    · split at hs
      · split at hs
        · rename_i e hm
          simp only [Except.error.injEq] at hs
          subst hs
          unfold mergePid at hm
          split at hm <;> try (simp at hm; done)
          split at hm <;> simp at hm
        · split at hs <;> try (simp at hs; done)
          split at hs <;> simp at hs
      · rename_i td n ex p op
        split at hs
        · rename_i e hm
          simp only [Except.error.injEq] at hs
          subst hs
          cases p with
          | none => simp [mergeOpt] at hm
          | some p =>
            simp only [mergeOpt] at hm
            unfold mergePid at hm
            split at hm <;> try (simp at hm; done)
            split at hm <;> simp at hm
        · split at hs <;> try (simp at hs; done)
          split at hs <;> simp at hs
      · simp at hs
    · simp at hs
  have hrun : ∀ (evs : List (Event F)) (st : St F) (done : List (Event F)), RunInv tmin st done →
      (∀ ev ∈ evs, ¬ EmptyDetail ev) → run cc st evs ≠ .error .panic := by
    intro evs
    induction evs with
    | nil => intro st done _ _ hr; simp [run] at hr
    | cons ev evs ih =>
      intro st done hi hev hr
      unfold run at hr
      split at hr
      · rename_i e hs
        simp only [Except.error.injEq] at hr
        subst hr
        exact hstep st done ev hi (hev ev (by simp)) hs
      · rename_i st1 hs
        exact ih st1 _ (step_inv hi hs) (fun e he => hev e (by simp [he])) hr
  intro h
  unfold fromDoc at h
  split at h <;> try (simp at h; done)
  split at h
  · rename_i e he
    simp only [Except.error.injEq] at h
    subst h
    unfold beginningOfTime at he
    split at he <;> try (simp at he; done)
    split at he <;> simp at he
  · split at h
    · rename_i hl
      exact hne (List.length_eq_zero_iff.1 hl)
    · split at h
      · rename_i e hr
        simp only [Except.error.injEq] at h
        subst h
        exact hrun _ _ [] (init_inv tmin) hd hr
      · rename_i st hr
        split at h <;> try (simp at h; done)
        split at h <;> try (simp at h; done)
        rename_i e hb
        have hi : RunInv tmin st doc.events := by simpa using run_inv _ (init_inv tmin) hr
        obtain ⟨stats, -, h2⟩ := hi.acts
        rcases Tree.insertAll_spec stats (Tree.BInv.nil (T := F) (D := F) (α := Activity) tmin) with
          ⟨b', r', h5, h6⟩ | ⟨pre, x, post, h5, b'', r'', h6, h7, h8⟩
        · rw [h2] at h5
          cases h5
          rw [Tree.build_spec h6] at hb
          simp at hb
        · rcases h8 with ⟨_, h8⟩ | ⟨_, k, a, _, _, _, _, h8⟩ <;> rw [h2] at h8 <;> simp at h8

example : fromDoc exCc 0 exDoc ≠ .error .panic :=
  c10_no_panic_when exCc 0 exDoc (by simp [exDoc, exEvents]) (by
    intro ev hev
    simp only [exDoc, exEvents, List.mem_cons, List.not_mem_nil, or_false] at hev
    rcases hev with rfl | rfl | rfl | rfl <;> rintro ⟨d, dur, td, es, h, h'⟩ <;> cases h <;>
      simp at h')

end Verif.Trace
