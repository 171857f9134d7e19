import Verif.Trace.Props

/-! # C58, C08–C10: exactly which documents load, and how the others fail

The specification below describes loadable documents without reference to the loader: a list of
allowed event shapes plus conditions that relate the events of a document to each other. -/

set_option autoImplicit false
set_option linter.unusedSectionVars false
set_option linter.unusedSimpArgs false
set_option linter.unusedVariables false

namespace Verif.Trace

variable {F : Type} [LinearOrder F] [Zero F] [One F] [Add F] [Sub F]

/-! ## Specification -/

/-- Thread ids that clang gives to main-thread events: recent versions repeat the pid, old ones
use pid 1 and tid 0. -/
def TidOk (pid tid : Int) : Prop := (pid = 1 ∧ tid = 0) ∨ tid = pid

/-- Acceptable args of an activity called `name`. -/
def ArgsOk (name : String) (args : Option (Args F)) : Prop :=
  let empty := args = none ∨ args = some []
  match activities.lookup name with
  | some .nothing => empty
  | some .symbolOpt | some .unnamedLoopOpt => empty ∨ ∃ s, args = some [("detail", .str s)]
  | some _ => ∃ s, s ≠ "" ∧ args = some [("detail", .str s)]
  | none => empty ∨ ∃ s, s ≠ "" ∧ args = some [("detail", .str s)]

/-- The four kinds of events of a loadable document. -/
inductive Valid : Event F → Prop
  | activity (pid tid : Int) (ts : F) (name : String) (args : Option (Args F)) (dur : F) :
      1 < ts → TidOk pid tid → ArgsOk name args →
      Valid (.x ⟨pid, tid, ts, some name, none, none, args, none⟩ dur none none)
  | statistic (pid tid : Int) (name : String) (args : Args F) (count : Nat) (avg dur : F) :
      tid ≠ 0 → GlobalArgsShape args count avg →
      Valid (.x ⟨pid, tid, 0, some ("Total " ++ name), none, none, some args, none⟩ dur none none)
  | processName (pid tid : Int) (name : String) : TidOk pid tid →
      Valid (.m (.processName pid name [] (some tid) ⟨some [], some 0, none⟩))
  | threadName (tid : Int) (name : String) :
      Valid (.m (.threadName tid name [] (some tid) ⟨some [], some 0, none⟩))

/-- Time span of an activity event. -/
def spanOf : Event F → List (F × F)
  | .x d dur _ _ => if 1 < d.ts then [(d.ts, d.ts + dur)] else []
  | _ => []

/-- Full name of a statistic event. -/
def statNameOf : Event F → List String
  | .x d _ _ _ => if 1 < d.ts then [] else d.name.toList
  | _ => []

/-- Ends never decrease and no span starts strictly inside an earlier one. -/
def Nested (a c : F × F) : Prop := a.2 ≤ c.2 ∧ ¬ (a.1 < c.1 ∧ c.1 < a.2)

/-- Conditions on the events seen so far. -/
structure GoodEvents (evs : List (Event F)) : Prop where
  valid : ∀ ev ∈ evs, Valid ev
  onePid : ∀ p ∈ evs.flatMap pidsOf, ∀ q ∈ evs.flatMap pidsOf, p = q
  oneProcess : (evs.flatMap processNameOf).length ≤ 1
  oneThread : (evs.flatMap threadNameOf).length ≤ 1
  stats : (evs.flatMap statNameOf).Nodup
  nested : (evs.flatMap spanOf).Pairwise Nested

/-- A JSON number, or nothing at all. -/
def BotOk (extra : Args F) : Prop :=
  ∀ v, extra.lookup "beginningOfTime" = some v → ∃ u f, v = .num u f

/-- JSON objects have distinct keys. -/
def KeysOk (evs : List (Event F)) : Prop :=
  ∀ ev ∈ evs, ∀ d dur td es, ev = .x d dur td es → ∀ args, d.args = some args → KeysDistinct args

/-! ## One event -/

theorem parseActivity_iff (cc : CharClass) (name : String) (args : Option (Args F)) :
    (∃ a, parseActivity cc name args = .ok a) ↔ ArgsOk name args := by
  by_cases hne : args = some [("detail", .str "")]
  · subst hne
    have hi := (infer_none_iff cc "").2 rfl
    unfold ArgsOk parseActivity
    cases activities.lookup name with
    | none => simp [parseDetailArg, hi]
    | some t => cases t <;> simp [parseDetailArg, parseEmptyArgs, hi]
  · unfold ArgsOk
    cases hl : activities.lookup name with
    | none =>
      rw [c11_unknown_accept_iff cc name hl args hne]
      constructor
      · rintro (h | h | ⟨s, h⟩)
        · exact .inl (.inl h)
        · exact .inl (.inr h)
        · exact .inr ⟨s, fun hs => hne (by rw [h, hs]), h⟩
      · rintro ((h | h) | ⟨s, -, h⟩)
        · exact .inl h
        · exact .inr (.inl h)
        · exact .inr (.inr ⟨s, h⟩)
    | some t =>
      rw [(c11_known_accept_iff cc name t hl args hne).2]
      have hd : (∃ s, args = some [("detail", .str s)]) ↔
          ∃ s, s ≠ "" ∧ args = some [("detail", .str s)] :=
        ⟨fun ⟨s, h⟩ => ⟨s, fun hs => hne (by rw [h, hs]), h⟩, fun ⟨s, _, h⟩ => ⟨s, h⟩⟩
      cases t <;> simp only [Shape] <;> first | exact hd | rfl

/-- How `ev` must relate to the events `done` that precede it. -/
structure Fits (done : List (Event F)) (ev : Event F) : Prop where
  valid : Valid ev
  pid : ∀ p ∈ done.flatMap pidsOf, ∀ q ∈ pidsOf ev, p = q
  process : processNameOf ev ≠ [] → done.flatMap processNameOf = []
  thread : threadNameOf ev ≠ [] → done.flatMap threadNameOf = []
  stat : ∀ n ∈ statNameOf ev, n ∉ done.flatMap statNameOf
  nested : ∀ a ∈ done.flatMap spanOf, ∀ c ∈ spanOf ev, Nested a c

theorem good_snoc (done : List (Event F)) (ev : Event F) :
    GoodEvents (done ++ [ev]) ↔ GoodEvents done ∧ Fits done ev := by
  have e1 : ∀ {β : Type} (f : Event F → List β), (done ++ [ev]).flatMap f =
      done.flatMap f ++ f ev := by intro β f; simp [List.flatMap_append]
  have lp : (processNameOf ev).length ≤ 1 := by unfold processNameOf; split <;> simp
  have lt : (threadNameOf ev).length ≤ 1 := by unfold threadNameOf; split <;> simp
  have lq : ∀ p ∈ pidsOf ev, ∀ q ∈ pidsOf ev, p = q := by unfold pidsOf; split <;> simp
  have ls : (statNameOf ev).Nodup := by
    unfold statNameOf
    split
    · split
      · simp
      · rename_i d _ _ _ _; cases d.name <;> simp
    · simp
  have lsp : (spanOf ev).Pairwise Nested := by unfold spanOf; split <;> (try split) <;> simp
  have len : ∀ {β : Type} (l m : List β), m.length ≤ 1 →
      ((l ++ m).length ≤ 1 ↔ l.length ≤ 1 ∧ (m ≠ [] → l = [])) := by
    intro β l m hm
    cases m with
    | nil => simp
    | cons x m =>
      cases l with
      | nil => simpa using hm
      | cons y l => simp
  constructor
  · rintro ⟨h1, h2, h3, h4, h5, h6⟩
    rw [e1] at h2 h3 h4 h5 h6
    rw [len _ _ lp] at h3
    rw [len _ _ lt] at h4
    rw [List.nodup_append] at h5
    rw [List.pairwise_append] at h6
    refine ⟨⟨fun e he => h1 e (by simp [he]), fun p hp q hq => h2 p (by simp [hp]) q (by simp [hq]),
      h3.1, h4.1, h5.1, h6.1⟩, h1 ev (by simp), fun p hp q hq => h2 p (by simp only [List.mem_append, hp, true_or]) q
        (by simp only [List.mem_append, hq, or_true]), h3.2, h4.2, fun n hn hm => h5.2.2 n hm n hn rfl, h6.2.2⟩
  · rintro ⟨⟨h1, h2, h3, h4, h5, h6⟩, g1, g2, g3, g4, g5, g6⟩
    refine ⟨?_, ?_, ?_, ?_, ?_, ?_⟩
    · intro e he
      rcases List.mem_append.1 he with he | he
      · exact h1 e he
      · rw [List.mem_singleton] at he; rw [he]; exact g1
    · rw [e1]
      intro p hp q hq
      rcases List.mem_append.1 hp with hp | hp <;> rcases List.mem_append.1 hq with hq | hq
      · exact h2 p hp q hq
      · exact g2 p hp q hq
      · exact (g2 q hq p hp).symm
      · exact lq p hp q hq
    · rw [e1, len _ _ lp]; exact ⟨h3, g3⟩
    · rw [e1, len _ _ lt]; exact ⟨h4, g4⟩
    · rw [e1, List.nodup_append]
      exact ⟨h5, ls, fun a ha b hb hab => g5 b hb (hab ▸ ha)⟩
    · rw [e1, List.pairwise_append]
      exact ⟨h6, lsp, g6⟩

/-- Facts about the loop state that the acceptance proof needs. -/
structure Inv2 (tmin : F) (st : St F) (done : List (Event F)) : Prop extends RunInv tmin st done where
  tree : ∃ stats roots, Tree.BInv tmin st.builder stats roots ∧
    stats.map (fun s => (s.start, s.stop)) = done.flatMap spanOf
  names : st.globals.map (fun g => "Total " ++ g.1) = done.flatMap statNameOf

theorem inv2_init (tmin : F) : Inv2 tmin (init tmin) [] :=
  { init_inv tmin with
    tree := ⟨[], [], Tree.BInv.nil tmin, rfl⟩
    names := rfl }

theorem mergePid_iff {st : St F} {done : List (Event F)} (h1 : st.pid = (done.flatMap pidsOf).head?)
    (h2 : ∀ p ∈ done.flatMap pidsOf, st.pid = some p) (q : Int) :
    (mergePid (F := F) st.pid q = .ok (some q) ∧ ∀ p ∈ done.flatMap pidsOf, p = q) ∨
    (∃ p, mergePid (F := F) st.pid q = .error (.inconsistentPid p q) ∧ p ≠ q ∧
      (done.flatMap pidsOf).head? = some p) := by
  cases hp : st.pid with
  | none =>
    left
    refine ⟨rfl, fun p hp' => ?_⟩
    rw [h2 p hp'] at hp
    simp at hp
  | some p =>
    by_cases hpq : p = q
    · left
      refine ⟨by simp [mergePid, hpq], fun r hr => ?_⟩
      have := h2 r hr
      rw [hp] at this
      rw [← Option.some.inj this, hpq]
    · right
      exact ⟨p, by simp [mergePid, hpq], hpq, by rw [← h1, hp]⟩

/-- Every outcome of one loop iteration. -/
theorem step_spec {cc : CharClass} {tmin : F} (h01 : (0 : F) ≤ 1) (htmin : ∀ x : F, tmin ≤ x)
    {st : St F} {done : List (Event F)} {ev : Event F} (h : Inv2 tmin st done)
    (hk : KeysOk [ev]) :
    (Fits done ev → ∃ st', step cc st ev = .ok st') ∧
    (∀ st', step cc st ev = .ok st' → Fits done ev ∧ Inv2 tmin st' (done ++ [ev])) := by
  have hfm : ∀ {β : Type} (f : Event F → List β), (done ++ [ev]).flatMap f =
      done.flatMap f ++ f ev := by intro β f; simp [List.flatMap_append]
  have binv : ∀ (s : Tree.Stat F F Activity), 1 < s.start →
      ((∀ a ∈ done.flatMap spanOf, Nested a (s.start, s.stop)) →
        ∃ b, Tree.insert st.builder s = .ok b) ∧
      (∀ b, Tree.insert st.builder s = .ok b →
        (∀ a ∈ done.flatMap spanOf, Nested a (s.start, s.stop)) ∧
        ∃ stats roots, Tree.BInv tmin b stats roots ∧
          stats.map (fun s => (s.start, s.stop)) = done.flatMap spanOf ++ [(s.start, s.stop)]) := by
    intro s hs
    obtain ⟨stats, roots, hb, hst⟩ := h.tree
    have hmem : ∀ a ∈ stats, (a.start, a.stop) ∈ done.flatMap spanOf := by
      intro a ha; rw [← hst]; exact List.mem_map.2 ⟨a, ha, rfl⟩
    rcases Tree.insert_spec hb s with ⟨h1, h2⟩ | ⟨h1, k, a, h2, h3, h4, h5, h6⟩ | ⟨h1, h2, b, r', h3, h4⟩
    · constructor
      · intro hn
        exfalso
        rw [hb.lastIs] at h1
        cases hl : stats.getLast? with
        | none => rw [hl] at h1; exact absurd h1 (not_lt.2 (htmin _))
        | some a =>
          rw [hl] at h1
          have := (hn _ (hmem a (List.mem_of_getLast? hl))).1
          exact absurd h1 (not_lt.2 this)
      · intro b hb'; rw [h2] at hb'; simp at hb'
    · constructor
      · intro hn
        exact absurd ⟨h3, h4⟩ (hn _ (hmem a (List.mem_of_getElem? h2))).2
      · intro b hb'; rw [h6] at hb'; simp at hb'
    · constructor
      · intro _; exact ⟨b, h3⟩
      · intro b' hb'
        rw [h3] at hb'
        cases hb'
        refine ⟨?_, _, r', h4, by simp [hst]⟩
        intro a ha
        rw [← hst] at ha
        obtain ⟨c, hc, rfl⟩ := List.mem_map.1 ha
        exact ⟨le_trans (hb.last c hc) h1, h2 c hc⟩
  constructor
  · rintro ⟨hv, hpid, hproc, hthr, hstat, hnest⟩
    have hmerge : ∀ q ∈ pidsOf ev, mergePid (F := F) st.pid q = .ok (some q) := by
      intro q hq
      rcases mergePid_iff h.pid h.pidEq q with ⟨hm, -⟩ | ⟨p, -, hne, hd⟩
      · exact hm
      · exact absurd (hpid p (List.mem_of_mem_head? hd) q hq) hne
    cases hv with
    | activity pid tid ts name args dur hts htid hargs =>
      obtain ⟨a, ha⟩ := (parseActivity_iff cc name args).2 hargs
      have hm := hmerge pid (by simp [pidsOf])
      obtain ⟨b, hb⟩ := (binv ⟨a, ts, ts + dur, dur⟩ hts).1 (fun x hx =>
        hnest x hx _ (by simp [spanOf, hts]))
      have hps : parseStat cc (.x ⟨pid, tid, ts, some name, none, none, args, none⟩ dur none none) =
          .ok ⟨a, ts, ts + dur, dur⟩ := by
        unfold parseStat; simp only; rw [if_pos (show (pid = 1 ∧ tid = 0) ∨ tid = pid from htid)]; simp only [ha]
      exact ⟨_, by simp only [step, hm, if_pos hts, hps, hb]; rfl⟩
    | statistic pid tid name args count avg dur htid hsh =>
      have hm := hmerge pid (by simp [pidsOf])
      have hn1 : ¬ (1 : F) < 0 := not_lt.2 h01
      have hpg := (c12_accept_iff pid tid (0 : F) (some ("Total " ++ name)) none none args none dur
        none none (hk _ (List.mem_singleton.2 rfl) _ _ _ _ rfl _ rfl) name ⟨dur, count⟩).2
        ⟨rfl, rfl, htid, rfl, rfl, rfl, rfl, rfl, rfl, avg, hsh⟩
      have hlk : st.globals.lookup name = none := by
        rw [List.lookup_eq_none_iff]
        intro kv hkv
        by_contra hc
        have hc' : name = kv.1 := by simpa using hc
        refine hstat ("Total " ++ name) (by simp [statNameOf, hn1]) ?_
        rw [← h.names]
        exact List.mem_map.2 ⟨kv, hkv, by rw [hc']⟩
      exact ⟨_, by simp only [step, hm, if_neg hn1, hpg, hlk]; rfl⟩
    | processName pid tid name htid =>
      have hm := hmerge pid (by simp [pidsOf])
      have hpp := (c13_process_name_iff (F := F)
        (.processName pid name [] (some tid) ⟨some [], some 0, none⟩) name).2 ⟨pid, tid, rfl, htid⟩
      have hnn : st.processName = none := by
        have := hproc (by simp [processNameOf])
        rw [h.procs] at this
        cases hst : st.processName <;> simp [hst] at this ⊢
      exact ⟨_, by simp only [step, hm, hpp, hnn]; rfl⟩
    | threadName tid name =>
      have hm := hmerge tid (by simp [pidsOf])
      have hpp := (c13_thread_name_iff (F := F)
        (.threadName tid name [] (some tid) ⟨some [], some 0, none⟩) name).2 ⟨tid, rfl⟩
      have hnn : st.threadName = none := by
        have := hthr (by simp [threadNameOf])
        rw [h.threads] at this
        cases hst : st.threadName <;> simp [hst] at this ⊢
      exact ⟨_, by simp only [step, mergeOpt, hm, hpp, hnn]; rfl⟩
  · intro st' hs
    have hri := step_inv h.toRunInv hs
    have hmerge : ∀ q r, mergePid (F := F) st.pid q = .ok r →
        ∀ p ∈ done.flatMap pidsOf, p = q := by
      intro q r hm
      rcases mergePid_iff h.pid h.pidEq q with ⟨_, hm'⟩ | ⟨p, hm', -⟩
      · exact hm'
      · rw [hm'] at hm; simp at hm
    unfold step at hs
    split at hs
    · rename_i d dur td es
      split at hs <;> try (simp at hs; done)
      rename_i pid hm
      have hpid := hmerge _ _ hm
      split at hs
      · rename_i hts
        split at hs <;> try (simp at hs; done)
        rename_i s hps
        split at hs <;> try (simp at hs; done)
        rename_i b hins
        cases hs
        unfold parseStat at hps
        split at hps <;> try (simp at hps; done)
        rename_i pid' tid ts name args dur heq
        cases heq
        split at hps <;> try (simp at hps; done)
        rename_i htid
        split at hps <;> try (simp at hps; done)
        rename_i a ha
        cases hps
        obtain ⟨hn, hb⟩ := (binv _ hts).2 b hins
        refine ⟨⟨.activity _ _ _ _ _ _ hts htid ((parseActivity_iff cc name args).1 ⟨a, ha⟩), ?_, ?_,
          ?_, ?_, ?_⟩, { hri with tree := ?_, names := ?_ }⟩
        · intro p hp q hq; simp [pidsOf] at hq; rw [hq]; exact hpid p hp
        · simp [processNameOf]
        · simp [threadNameOf]
        · simp [statNameOf, hts]
        · intro a ha c hc
          have : (1 : F) < ts := hts
          simp [spanOf, this] at hc
          rw [hc]; exact hn a ha
        · have : (1 : F) < ts := hts
          rw [hfm]; simpa [spanOf, this] using hb
        · have : (1 : F) < ts := hts
          rw [hfm]; simpa [statNameOf, this] using h.names
      · rename_i hts
        split at hs <;> try (simp at hs; done)
        rename_i name stat hpg
        split at hs <;> try (simp at hs; done)
        rename_i hlk
        cases hs
        obtain ⟨dpid, dtid, dts, dname, dcat, dtts, dargs, dst⟩ := d
        cases dargs with
        | none => exact absurd hpg (c12_no_args _ _ _ _ rfl _ _)
        | some args =>
          have hkd := hk _ (List.mem_singleton.2 rfl) _ _ _ _ rfl _ rfl
          obtain ⟨rfl, rfl, htid, rfl, rfl, rfl, rfl, rfl, ht, avg, hsh⟩ :=
            (c12_accept_iff _ _ _ _ _ _ _ _ _ _ _ hkd _ _).1 hpg
          refine ⟨⟨.statistic _ _ _ _ _ _ _ htid hsh, ?_, ?_, ?_, ?_, ?_⟩,
            { hri with tree := ?_, names := ?_ }⟩
          · intro p hp q hq; simp [pidsOf] at hq; rw [hq]; exact hpid p hp
          · simp [processNameOf]
          · simp [threadNameOf]
          · intro n hn
            have : ¬ (1 : F) < 0 := hts
            simp [statNameOf, this] at hn
            rw [hn, ← h.names]
            intro hin
            obtain ⟨kv, hkv, he⟩ := List.mem_map.1 hin
            have he' : kv.1 = name := by
              have := congrArg String.toList he
              simp only [String.toList_append, List.append_cancel_left_eq] at this
              exact String.toList_inj.1 this
            have := List.lookup_eq_none_iff.1 hlk kv hkv
            simp [he'] at this
          · intro a ha c hc
            have : ¬ (1 : F) < 0 := hts
            simp [spanOf, this] at hc
          · have : ¬ (1 : F) < 0 := hts
            rw [hfm]; simpa [spanOf, this] using h.tree
          · have : ¬ (1 : F) < 0 := hts
            rw [hfm]; simp [statNameOf, this, h.names]
    · rename_i m
      split at hs
      · rename_i p n ex td op
        split at hs <;> try (simp at hs; done)
        rename_i pid hm
        have hpid := hmerge _ _ hm
        split at hs <;> try (simp at hs; done)
        rename_i n' hn
        split at hs <;> try (simp at hs; done)
        rename_i hnone
        cases hs
        rw [c13_process_name_iff] at hn
        obtain ⟨_, _, hn, htid⟩ := hn
        cases hn
        refine ⟨⟨.processName _ _ _ htid, ?_, ?_, ?_, ?_, ?_⟩, { hri with tree := ?_, names := ?_ }⟩
        · intro p hp q hq; simp [pidsOf] at hq; rw [hq]; exact hpid p hp
        · intro _; rw [h.procs, hnone]; rfl
        · simp [threadNameOf]
        · simp [statNameOf]
        · simp [spanOf]
        · rw [hfm]; simpa [spanOf] using h.tree
        · rw [hfm]; simpa [statNameOf] using h.names
      · rename_i td n ex p op
        split at hs <;> try (simp at hs; done)
        rename_i pid hm
        split at hs <;> try (simp at hs; done)
        rename_i n' hn
        split at hs <;> try (simp at hs; done)
        rename_i hnone
        cases hs
        rw [c13_thread_name_iff] at hn
        obtain ⟨_, hn⟩ := hn
        cases hn
        simp only [mergeOpt] at hm
        have hpid := hmerge _ _ hm
        refine ⟨⟨.threadName _ _, ?_, ?_, ?_, ?_, ?_⟩, { hri with tree := ?_, names := ?_ }⟩
        · intro p hp q hq; simp [pidsOf] at hq; rw [hq]; exact hpid p hp
        · simp [processNameOf]
        · intro _; rw [h.threads, hnone]; rfl
        · simp [statNameOf]
        · simp [spanOf]
        · rw [hfm]; simpa [spanOf] using h.tree
        · rw [hfm]; simpa [statNameOf] using h.names
      · simp at hs
    · simp at hs

theorem run_append (cc : CharClass) (xs ys : List (Event F)) : ∀ (st st' : St F),
    run cc st xs = .ok st' → run cc st (xs ++ ys) = run cc st' ys := by
  induction xs with
  | nil => intro st st' h; simp [run] at h; subst h; rfl
  | cons x xs ih =>
    intro st st' h
    simp only [run, List.cons_append] at h ⊢
    cases hx : step cc st x with
    | error e => rw [hx] at h; simp at h
    | ok s => rw [hx] at h; exact ih s st' h

theorem run_error_append (cc : CharClass) (xs ys : List (Event F)) (e : TErr F) : ∀ (st : St F),
    run cc st xs = .error e → run cc st (xs ++ ys) = .error e := by
  induction xs with
  | nil => intro st h; simp [run] at h
  | cons x xs ih =>
    intro st h
    simp only [run, List.cons_append] at h ⊢
    cases hx : step cc st x with
    | error e => rw [hx] at h; simpa using h
    | ok s => rw [hx] at h; exact ih s h

theorem run_spec {cc : CharClass} {tmin : F} (h01 : (0 : F) ≤ 1) (htmin : ∀ x : F, tmin ≤ x)
    (evs : List (Event F)) (hk : KeysOk evs) :
    (GoodEvents evs ↔ ∃ st, run cc (init tmin) evs = .ok st) ∧
    ∀ st, run cc (init tmin) evs = .ok st → Inv2 tmin st evs := by
  induction evs using List.reverseRecOn with
  | nil =>
    refine ⟨⟨fun _ => ⟨_, rfl⟩, fun _ => ⟨by simp, by simp, by simp, by simp, by simp, by simp⟩⟩, ?_⟩
    intro st h; simp [run] at h; subst h; exact inv2_init tmin
  | append_singleton evs ev ih =>
    have hk1 : KeysOk evs := fun e he => hk e (by simp [he])
    have hk2 : KeysOk [ev] := fun e he => hk e (by simp at he; simp [he])
    obtain ⟨ih1, ih2⟩ := ih hk1
    cases hr : run cc (init tmin) evs with
    | error e =>
      rw [run_error_append cc _ _ _ _ hr, good_snoc, ih1, hr]
      simp
    | ok st =>
      have hinv := ih2 st hr
      obtain ⟨s1, s2⟩ := step_spec (cc := cc) h01 htmin hinv hk2
      rw [run_append cc _ _ _ _ hr]
      have hrs : ∀ st', run cc st [ev] = .ok st' ↔ step cc st ev = .ok st' := by
        intro st'
        simp only [run]
        cases step cc st ev <;> simp
      refine ⟨?_, fun st' hst' => (s2 st' ((hrs st').1 hst')).2⟩
      rw [good_snoc, ih1, hr]
      constructor
      · rintro ⟨-, hf⟩
        obtain ⟨st', hst'⟩ := s1 hf
        exact ⟨st', (hrs st').2 hst'⟩
      · rintro ⟨st', hst'⟩
        exact ⟨⟨st, rfl⟩, (s2 st' ((hrs st').1 hst')).1⟩

theorem bot_spec (extra : Args F) :
    (BotOk extra → ∃ b, beginningOfTime extra = .ok b) ∧
    (∀ b, beginningOfTime extra = .ok b → BotOk extra) := by
  unfold BotOk beginningOfTime
  cases extra.lookup "beginningOfTime" with
  | none => simp
  | some v => cases v <;> simp [JVal.asF64]

/-! ## The theorems -/

/-- **C58** a document loads exactly when it has no unexpected top-level field, its
`beginningOfTime` (if any) is a number, its events have the allowed shapes and fit together, and
one of them names the process. -/
theorem c58_accept_iff (cc : CharClass) {tmin : F} (h01 : (0 : F) ≤ 1) (htmin : ∀ x : F, tmin ≤ x)
    (doc : Doc F) (hk : KeysOk doc.events) :
    (∃ tr, fromDoc cc tmin doc = .ok tr) ↔
      doc.standardDefault = true ∧ BotOk doc.extra ∧ GoodEvents doc.events ∧
        doc.events.flatMap processNameOf ≠ [] := by
  obtain ⟨hr1, hr2⟩ := run_spec (cc := cc) h01 htmin doc.events hk
  constructor
  · rintro ⟨tr, h⟩
    have hp := (c09_unique_names h).1
    unfold fromDoc at h
    split at h <;> try (simp at h; done)
    rename_i hstd
    split at h <;> try (simp at h; done)
    rename_i bot hb
    split at h <;> try (simp at h; done)
    split at h <;> try (simp at h; done)
    rename_i st hr
    exact ⟨by simpa using hstd, (bot_spec _).2 _ hb, hr1.2 ⟨st, hr⟩, by rw [hp]; simp⟩
  · rintro ⟨hstd, hbot, hg, hp⟩
    obtain ⟨b, hb⟩ := (bot_spec _).1 hbot
    obtain ⟨st, hr⟩ := hr1.1 hg
    have hinv := hr2 st hr
    have hlen : doc.events.length ≠ 0 := by
      intro h0
      rw [List.length_eq_zero_iff] at h0
      rw [h0] at hp
      simp at hp
    cases hpn : st.processName with
    | none => rw [hinv.procs, hpn] at hp; simp at hp
    | some n =>
      obtain ⟨stats, roots, hbi, -⟩ := hinv.tree
      refine ⟨⟨⟨st.builder.acts, st.builder.children ++ roots, st.builder.children.length⟩,
        st.globals, n, st.threadName, st.pid.filter (fun p => decide (p > 1)), b⟩, ?_⟩
      · unfold fromDoc
        simp only [hstd, Bool.not_true, Bool.false_eq_true, if_false, hb, if_neg hlen, hr, hpn,
          Tree.build_spec hbi]

/-- **C58** the reported beginning of time is the announced one. -/
theorem c58_beginning_of_time {cc : CharClass} {tmin : F} {doc : Doc F} {tr : ClangTrace F}
    (h : fromDoc cc tmin doc = .ok tr) :
    tr.beginningOfTime = (doc.extra.lookup "beginningOfTime").bind
      (fun v => match v with | .num _ f => some f | _ => none) := by
  obtain ⟨st, -, -, -, -, -, -, hb⟩ := fromDoc_ok h
  unfold beginningOfTime at hb
  cases hl : doc.extra.lookup "beginningOfTime" with
  | none => rw [hl] at hb; simp at hb; simp [hb]
  | some v => rw [hl] at hb; cases v <;> simp [JVal.asF64] at hb; simp [hb]

/-- A document whose header is fine. -/
def HeaderOk (doc : Doc F) : Prop := doc.standardDefault = true ∧ BotOk doc.extra

theorem fromDoc_of_step_error (cc : CharClass) {tmin : F} (h01 : (0 : F) ≤ 1)
    (htmin : ∀ x : F, tmin ≤ x) {doc : Doc F} (hh : HeaderOk doc) {pre post : List (Event F)}
    {ev : Event F} (hd : doc.events = pre ++ ev :: post) (hk : KeysOk doc.events)
    (hg : GoodEvents pre) {e : TErr F}
    (hs : ∀ st, Inv2 tmin st pre → step cc st ev = .error e) :
    fromDoc cc tmin doc = .error e := by
  have hkp : KeysOk pre := fun x hx => hk x (by rw [hd]; simp [hx])
  obtain ⟨hr1, hr2⟩ := run_spec (cc := cc) h01 htmin pre hkp
  obtain ⟨st, hr⟩ := hr1.1 hg
  obtain ⟨b, hb⟩ := (bot_spec _).1 hh.2
  have hlen : doc.events.length ≠ 0 := by rw [hd]; simp
  have hrun : run cc (init tmin) doc.events = .error e := by
    rw [hd, run_append cc _ _ _ _ hr]
    simp only [run, hs st (hr2 st hr)]
  unfold fromDoc
  simp only [hh.1, Bool.not_true, Bool.false_eq_true, if_false, hb, if_neg hlen, hrun]

/-- **C08** after any acceptable beginning, an event with another process id makes loading fail
with an error that reports the two ids, in order. -/
theorem c08_detected (cc : CharClass) {tmin : F} (h01 : (0 : F) ≤ 1) (htmin : ∀ x : F, tmin ≤ x)
    {doc : Doc F} (hh : HeaderOk doc) {pre post : List (Event F)} {ev : Event F}
    (hd : doc.events = pre ++ ev :: post) (hk : KeysOk doc.events) (hg : GoodEvents pre)
    {p q : Int} (hp : p ∈ pre.flatMap pidsOf) (hq : q ∈ pidsOf ev) (hne : p ≠ q) :
    fromDoc cc tmin doc = .error (.inconsistentPid p q) := by
  refine fromDoc_of_step_error cc h01 htmin hh hd hk hg ?_
  intro st hinv
  have hst := hinv.pidEq p hp
  have hm : mergePid (F := F) st.pid q = .error (.inconsistentPid p q) := by
    rw [hst]; simp [mergePid, hne]
  unfold pidsOf at hq
  split at hq <;> simp at hq <;> subst hq <;> simp only [step, mergeOpt, hm]

/-- **C09** after any acceptable beginning that names the process, another well-formed process
name for the same pid is a duplicate, and the error carries both names. -/
theorem c09_duplicate_process (cc : CharClass) {tmin : F} (h01 : (0 : F) ≤ 1)
    (htmin : ∀ x : F, tmin ≤ x) {doc : Doc F} (hh : HeaderOk doc) {pre post : List (Event F)}
    {pid tid : Int} {old n : String}
    (hd : doc.events = pre ++ .m (.processName pid n [] (some tid) ⟨some [], some 0, none⟩) :: post)
    (hk : KeysOk doc.events) (hg : GoodEvents pre) (hold : old ∈ pre.flatMap processNameOf)
    (hpid : ∀ p ∈ pre.flatMap pidsOf, p = pid) (ht : TidOk pid tid) :
    fromDoc cc tmin doc = .error (.duplicateProcessName old n) := by
  refine fromDoc_of_step_error cc h01 htmin hh hd hk hg ?_
  intro st hinv
  refine c09_duplicate_process_name ?_ ?_ ht
  · rw [hinv.procs] at hold
    cases hst : st.processName with
    | none => rw [hst] at hold; simp at hold
    | some x => rw [hst] at hold; simp at hold; rw [hold]
  · rcases mergePid_iff hinv.pid hinv.pidEq pid with ⟨hm, -⟩ | ⟨p, -, hne, hhd⟩
    · exact (mergePid_ok hm).2
    · exact absurd (hpid p (List.mem_of_mem_head? hhd)) hne

/-- **C09** likewise for thread names. -/
theorem c09_duplicate_thread (cc : CharClass) {tmin : F} (h01 : (0 : F) ≤ 1)
    (htmin : ∀ x : F, tmin ≤ x) {doc : Doc F} (hh : HeaderOk doc) {pre post : List (Event F)}
    {tid : Int} {old n : String}
    (hd : doc.events = pre ++ .m (.threadName tid n [] (some tid) ⟨some [], some 0, none⟩) :: post)
    (hk : KeysOk doc.events) (hg : GoodEvents pre) (hold : old ∈ pre.flatMap threadNameOf)
    (hpid : ∀ p ∈ pre.flatMap pidsOf, p = tid) :
    fromDoc cc tmin doc = .error (.duplicateThreadName old n) := by
  refine fromDoc_of_step_error cc h01 htmin hh hd hk hg ?_
  intro st hinv
  have hm : mergePid (F := F) st.pid tid = .ok (some tid) := by
    rcases mergePid_iff hinv.pid hinv.pidEq tid with ⟨hm, -⟩ | ⟨p, -, hne, hhd⟩
    · exact hm
    · exact absurd (hpid p (List.mem_of_mem_head? hhd)) hne
  have hpp := (c13_thread_name_iff (F := F)
    (.threadName tid n [] (some tid) ⟨some [], some 0, none⟩) n).2 ⟨tid, rfl⟩
  have hst : st.threadName = some old := by
    rw [hinv.threads] at hold
    cases hst : st.threadName with
    | none => rw [hst] at hold; simp at hold
    | some x => rw [hst] at hold; simp at hold; rw [hold]
  simp only [step, mergeOpt, hm, hpp, hst]

/-- **C09** a statistic that repeats the name of an earlier one makes loading fail with an error
that carries the name and the new value. -/
theorem c09_duplicate_statistic (cc : CharClass) {tmin : F} (h01 : (0 : F) ≤ 1)
    (htmin : ∀ x : F, tmin ≤ x) {doc : Doc F} (hh : HeaderOk doc) {pre post : List (Event F)}
    {pid tid : Int} {n : String} {args : Args F} {count : Nat} {avg dur : F}
    (hd : doc.events = pre ++
      .x ⟨pid, tid, 0, some ("Total " ++ n), none, none, some args, none⟩ dur none none :: post)
    (hk : KeysOk doc.events) (hg : GoodEvents pre) (hold : ("Total " ++ n) ∈ pre.flatMap statNameOf)
    (hpid : ∀ p ∈ pre.flatMap pidsOf, p = pid) (htid : tid ≠ 0)
    (hsh : GlobalArgsShape args count avg) :
    ∃ old, fromDoc cc tmin doc = .error (.duplicateGlobalStat n old ⟨dur, count⟩) ∧
      ∃ ev ∈ pre, RecordsGlobal ev (n, old) := by
  have hn1 : ¬ (1 : F) < 0 := not_lt.2 h01
  have hkp : KeysOk pre := fun x hx => hk x (by rw [hd]; simp [hx])
  obtain ⟨hr1, hr2⟩ := run_spec (cc := cc) h01 htmin pre hkp
  obtain ⟨st, hr⟩ := hr1.1 hg
  have hinv := hr2 st hr
  obtain ⟨b, hb⟩ := (bot_spec _).1 hh.2
  have hlen : doc.events.length ≠ 0 := by rw [hd]; simp
  have hm : mergePid (F := F) st.pid pid = .ok (some pid) := by
    rcases mergePid_iff hinv.pid hinv.pidEq pid with ⟨hm, -⟩ | ⟨p, -, hne, hhd⟩
    · exact hm
    · exact absurd (hpid p (List.mem_of_mem_head? hhd)) hne
  have hmemd : Event.x ⟨pid, tid, 0, some ("Total " ++ n), none, none, some args, none⟩ dur none none
      ∈ doc.events := by rw [hd]; exact List.mem_append.2 (.inr List.mem_cons_self)
  have hpg := (c12_accept_iff pid tid (0 : F) (some ("Total " ++ n)) none none args none dur
    none none (hk _ hmemd _ _ _ _ rfl _ rfl) n ⟨dur, count⟩).2
    ⟨rfl, rfl, htid, rfl, rfl, rfl, rfl, rfl, rfl, avg, hsh⟩
  obtain ⟨old, hlk⟩ : ∃ old, st.globals.lookup n = some old := by
    rw [← hinv.names] at hold
    obtain ⟨kv, hkv, he⟩ := List.mem_map.1 hold
    have he' : kv.1 = n := by
      have := congrArg String.toList he
      simp only [String.toList_append, List.append_cancel_left_eq] at this
      exact String.toList_inj.1 this
    cases hl : st.globals.lookup n with
    | some o => exact ⟨o, rfl⟩
    | none =>
      have := List.lookup_eq_none_iff.1 hl kv hkv
      simp [he'] at this
  refine ⟨old, ?_, ?_⟩
  · have hrun : run cc (init tmin) doc.events = .error (.duplicateGlobalStat n old ⟨dur, count⟩) := by
      rw [hd, run_append cc _ _ _ _ hr]
      simp only [run, step, hm, if_neg hn1, hpg, hlk]
    unfold fromDoc
    simp only [hh.1, Bool.not_true, Bool.false_eq_true, if_false, hb, if_neg hlen, hrun]
  · have hmem : (n, old) ∈ st.globals := by
      have : ∀ l : List (String × GlobalStat F), l.lookup n = some old → (n, old) ∈ l := by
        intro l
        induction l with
        | nil => simp
        | cons x l ih =>
          obtain ⟨k, v⟩ := x
          rw [List.lookup_cons]
          split
          · rename_i hk; intro h; simp at hk h; simp [hk, h]
          · intro h; simp [ih h]
      exact this _ hlk
    obtain ⟨i, hi, he⟩ := List.mem_iff_getElem.1 hmem
    have hf := hinv.globs
    have hl := hf.length_eq
    have := (List.forall₂_iff_get.1 hf).2 i (by omega) hi
    simp only [List.get_eq_getElem] at this
    rw [he] at this
    exact ⟨_, List.mem_of_mem_filter (List.getElem_mem (by omega)), this⟩

/-- **C09** a document that is fine except that nothing names the process is rejected for that
reason. -/
theorem c09_no_process_name (cc : CharClass) {tmin : F} (h01 : (0 : F) ≤ 1)
    (htmin : ∀ x : F, tmin ≤ x) {doc : Doc F} (hh : HeaderOk doc) (hk : KeysOk doc.events)
    (hg : GoodEvents doc.events) (hne : doc.events ≠ [])
    (hp : doc.events.flatMap processNameOf = []) :
    fromDoc cc tmin doc = .error .noProcessName := by
  obtain ⟨hr1, hr2⟩ := run_spec (cc := cc) h01 htmin doc.events hk
  obtain ⟨st, hr⟩ := hr1.1 hg
  obtain ⟨b, hb⟩ := (bot_spec _).1 hh.2
  have hlen : doc.events.length ≠ 0 := by rw [List.length_eq_zero_iff.ne]; exact hne
  have hpn : st.processName = none := by
    have := (hr2 st hr).procs
    rw [hp] at this
    cases hst : st.processName <;> simp [hst] at this ⊢
  unfold fromDoc
  simp only [hh.1, Bool.not_true, Bool.false_eq_true, if_false, hb, if_neg hlen, hr, hpn]

/-! ## C10: exactly when loading panics -/

/-- An activity event that is fine except for an empty detail string, of a kind whose detail is
inspected. -/
def EmptyDetailEvent (ev : Event F) : Prop :=
  ∃ pid tid ts name dur, 1 < ts ∧ TidOk pid tid ∧
    (∀ t, activities.lookup name = some t → t ≠ .nothing ∧ t ≠ .symbolOpt ∧ t ≠ .unnamedLoopOpt) ∧
    ev = .x ⟨pid, tid, ts, some name, none, none, some [("detail", .str "")], none⟩ dur none none

theorem parseActivity_panic_iff (cc : CharClass) (name : String) (args : Option (Args F)) :
    parseActivity cc name args = .panic ↔ args = some [("detail", .str "")] ∧
      ∀ t, activities.lookup name = some t → t ≠ .nothing ∧ t ≠ .symbolOpt ∧ t ≠ .unnamedLoopOpt := by
  have hi := (infer_none_iff cc "").2 rfl
  constructor
  · intro h
    have hinf : ∀ d, parseDetailArg args = .ok d → inferFromDetail cc d = none →
        args = some [("detail", .str "")] := by
      intro d hd hi
      rw [infer_none_iff] at hi
      subst hi
      exact (c11_detail_iff _ _).1 hd
    unfold parseActivity at h
    split at h
    · rename_i t ht
      split at h
      · split at h <;> simp at h
      · split at h <;> simp at h
      · split at h <;> simp at h
      · rename_i h1 h2 h3
        split at h <;> try (simp at h; done)
        rename_i d hd
        split at h <;> try (simp at h; done)
        rename_i hi
        refine ⟨hinf d hd hi, fun t' ht' => ?_⟩
        rw [ht] at ht'
        cases ht'
        exact ⟨h1, h2, h3⟩
    · rename_i ht
      split at h <;> try (simp at h; done)
      rename_i d hd
      split at h <;> try (simp at h; done)
      rename_i hi
      refine ⟨hinf d hd hi, fun t' ht' => ?_⟩
      rw [ht] at ht'; simp at ht'
  · rintro ⟨rfl, h⟩
    unfold parseActivity
    cases hl : activities.lookup name with
    | none => simp [parseDetailArg, hi]
    | some t =>
      have := h t hl
      cases t <;> simp_all [parseDetailArg, parseEmptyArgs]

theorem step_panic_iff {cc : CharClass} {tmin : F} {st : St F} {done : List (Event F)}
    {ev : Event F} (h : Inv2 tmin st done) :
    step cc st ev = .error .panic ↔
      EmptyDetailEvent ev ∧ ∀ p ∈ done.flatMap pidsOf, ∀ q ∈ pidsOf ev, p = q := by
  have hmp : ∀ q, mergePid (F := F) st.pid q ≠ .error .panic := by
    intro q hm
    rcases mergePid_iff h.pid h.pidEq q with ⟨hm', -⟩ | ⟨p, hm', -⟩ <;> rw [hm'] at hm <;> simp at hm
  constructor
  · intro hs
    unfold step at hs
    split at hs
    · rename_i d dur td es
      split at hs
      · rename_i e hm
        simp only [Except.error.injEq] at hs
        subst hs
        exact absurd hm (hmp _)
      · rename_i pid hm
        split at hs
        · rename_i hts
          split at hs
          · rename_i hp
            unfold parseStat at hp
            split at hp <;> try (simp at hp; done)
            rename_i pid' tid ts name args dur heq
            cases heq
            split at hp <;> try (simp at hp; done)
            rename_i htid
            split at hp <;> try (simp at hp; done)
            rename_i ha
            obtain ⟨rfl, hk⟩ := (parseActivity_panic_iff cc name _).1 ha
            refine ⟨⟨_, _, _, _, _, hts, htid, hk, rfl⟩, ?_⟩
            intro p hp q hq
            simp [pidsOf] at hq
            subst hq
            rcases mergePid_iff h.pid h.pidEq q with ⟨-, hm'⟩ | ⟨p, hm', -⟩
            · exact hm' p hp
            · rw [hm'] at hm; simp at hm
          · simp at hs
          · rename_i s hp
            split at hs
            · rename_i hins
              obtain ⟨stats, roots, hb, -⟩ := h.tree
              rcases Tree.insert_spec hb s with ⟨-, h2⟩ | ⟨-, k, a, -, -, -, -, h6⟩ | ⟨-, -, b, r', h3, -⟩
              · rw [h2] at hins; simp at hins
              · rw [h6] at hins; simp at hins
              · rw [h3] at hins; simp at hins
            · simp at hs
            · simp at hs
        · split at hs <;> try (simp at hs; done)
          split at hs <;> simp at hs
    · split at hs
      · split at hs
        · rename_i e hm
          simp only [Except.error.injEq] at hs
          subst hs
          exact absurd hm (hmp _)
        · split at hs <;> try (simp at hs; done)
          split at hs <;> simp at hs
      · rename_i p _
        split at hs
        · rename_i e hm
          simp only [Except.error.injEq] at hs
          subst hs
          cases p with
          | none => simp [mergeOpt] at hm
          | some p => exact absurd hm (hmp _)
        · split at hs <;> try (simp at hs; done)
          split at hs <;> simp at hs
      · simp at hs
    · simp at hs
  · rintro ⟨⟨pid, tid, ts, name, dur, hts, htid, hk, rfl⟩, hpid⟩
    have hm : mergePid (F := F) st.pid pid = .ok (some pid) := by
      rcases mergePid_iff h.pid h.pidEq pid with ⟨hm, -⟩ | ⟨p, -, hne, hhd⟩
      · exact hm
      · exact absurd (hpid p (List.mem_of_mem_head? hhd) pid (by simp [pidsOf])) hne
    have hp := (parseActivity_panic_iff (F := F) cc name _).2 ⟨rfl, hk⟩
    have hps : parseStat cc (.x ⟨pid, tid, ts, some name, none, none, some [("detail", .str "")],
        none⟩ dur none none) = .error .panic := by
      unfold parseStat; simp only; rw [if_pos (show (pid = 1 ∧ tid = 0) ∨ tid = pid from htid)]; simp only [hp]
    simp only [step, hm, if_pos hts, hps]

/-- **C10** loading panics exactly when the header is fine and either there is no event at all, or
an acceptable beginning is followed by an activity with an empty detail string. -/
theorem c10_panic_iff (cc : CharClass) {tmin : F} (h01 : (0 : F) ≤ 1) (htmin : ∀ x : F, tmin ≤ x)
    (doc : Doc F) (hk : KeysOk doc.events) :
    fromDoc cc tmin doc = .error .panic ↔ HeaderOk doc ∧
      (doc.events = [] ∨ ∃ pre ev post, doc.events = pre ++ ev :: post ∧ GoodEvents pre ∧
        EmptyDetailEvent ev ∧ ∀ p ∈ pre.flatMap pidsOf, ∀ q ∈ pidsOf ev, p = q) := by
  constructor
  · intro h
    unfold fromDoc at h
    split at h <;> try (simp at h; done)
    rename_i hstd
    split at h
    · rename_i e he
      simp only [Except.error.injEq] at h
      subst h
      unfold beginningOfTime at he
      split at he <;> try (simp at he; done)
      split at he <;> simp at he
    · rename_i bot hb
      refine ⟨⟨by simpa using hstd, (bot_spec _).2 _ hb⟩, ?_⟩
      split at h
      · rename_i hl; exact .inl (List.length_eq_zero_iff.1 hl)
      · right
        have key : ∀ (evs : List (Event F)), KeysOk evs →
            run cc (init tmin) evs = .error .panic →
            ∃ pre ev post, evs = pre ++ ev :: post ∧ GoodEvents pre ∧
              EmptyDetailEvent ev ∧ ∀ p ∈ pre.flatMap pidsOf, ∀ q ∈ pidsOf ev, p = q := by
          intro evs
          induction evs using List.reverseRecOn with
          | nil => intro _ h; simp [run] at h
          | append_singleton evs ev ih =>
            intro hk hr
            have hk1 : KeysOk evs := fun e he => hk e (by simp [he])
            cases hr' : run cc (init tmin) evs with
            | error e =>
              rw [run_error_append cc _ _ _ _ hr'] at hr
              rw [hr] at hr'
              obtain ⟨pre, e', post, h1, h2⟩ := ih hk1 hr'
              exact ⟨pre, e', post ++ [ev], by simp [h1], h2⟩
            | ok st =>
              rw [run_append cc _ _ _ _ hr'] at hr
              have hs : step cc st ev = .error .panic := by
                simp only [run] at hr
                cases hs : step cc st ev with
                | ok s => rw [hs] at hr; simp at hr
                | error e => rw [hs] at hr; simpa using hr
              obtain ⟨h1, h2⟩ := run_spec (cc := cc) h01 htmin evs hk1
              exact ⟨evs, ev, [], rfl, h1.2 ⟨st, hr'⟩, (step_panic_iff (h2 st hr')).1 hs⟩
        split at h
        · rename_i e hr
          simp only [Except.error.injEq] at h
          subst h
          exact key _ hk hr
        · rename_i st hr
          split at h <;> try (simp at h; done)
          obtain ⟨h1, h2⟩ := run_spec (cc := cc) h01 htmin doc.events hk
          obtain ⟨stats, roots, hbi, -⟩ := (h2 st hr).tree
          rw [Tree.build_spec hbi] at h
          simp at h
  · rintro ⟨hh, h | ⟨pre, ev, post, h1, h2, h3⟩⟩
    · obtain ⟨b, hb⟩ := (bot_spec _).1 hh.2
      unfold fromDoc
      simp only [hh.1, Bool.not_true, Bool.false_eq_true, if_false, hb, h, List.length_nil, if_true]
    · exact fromDoc_of_step_error cc h01 htmin hh h1 hk h2
        (fun st hinv => (step_panic_iff hinv).2 h3)

/-! Non-vacuity: a running example over natural timestamps (which have a least element, as `f64`
has) is acceptable, and so are its prefixes. -/

def exEvs : List (Event Nat) := [
  .x ⟨7, 7, 2, some "Source", none, none, some [("detail", .str "/a.h")], none⟩ 3 none none,
  .x ⟨7, 7, 2, some "Frontend", none, none, none, none⟩ 9 none none,
  .x ⟨7, 8, 0, some "Total Frontend", none, none,
    some [("count", .num (some 1) 1), ("avg ms", .num (some 9) 9)], none⟩ 9 none none,
  .m (.processName 7 "clang" [] (some 7) ⟨some [], some 0, none⟩),
  .m (.threadName 7 "main" [] (some 7) ⟨some [], some 0, none⟩)]

theorem exEvs_valid : ∀ ev ∈ exEvs, Valid ev := by
  have hl1 : activities.lookup "Source" = some .filePathOrModule := by decide
  have hl2 : activities.lookup "Frontend" = some .nothing := by decide
  intro ev hev
  simp only [exEvs, List.mem_cons, List.not_mem_nil, or_false] at hev
  rcases hev with rfl | rfl | rfl | rfl | rfl
  · exact .activity _ _ _ _ _ _ (by decide) (.inr rfl) (by simp [ArgsOk, hl1])
  · exact .activity _ _ _ _ _ _ (by decide) (.inr rfl) (by simp [ArgsOk, hl2])
  · exact .statistic 7 8 "Frontend" _ 1 9 9 (by decide) ⟨_, _, .refl _, rfl, rfl⟩
  · exact .processName _ _ _ (.inr rfl)
  · exact .threadName _ _

theorem exEvs_good : GoodEvents exEvs := by
  refine ⟨exEvs_valid, ?_, ?_, ?_, ?_, ?_⟩
  · decide
  · decide
  · decide
  · decide
  · simp [exEvs, spanOf, Nested]

theorem exEvs_keys (l : List (Event Nat)) (h : ∀ ev ∈ l, ev ∈ exEvs) : KeysOk l := by
  intro ev hev d dur td es he args ha
  have hev := h ev hev
  simp only [exEvs, List.mem_cons, List.not_mem_nil, or_false] at hev
  rcases hev with rfl | rfl | rfl | rfl | rfl <;> cases he <;> simp at ha <;> subst ha <;>
    simp [KeysDistinct]

example (cc : CharClass) : ∃ tr, fromDoc cc 0 ⟨exEvs, true, [("beginningOfTime", .num (some 3) 3)]⟩ =
    .ok tr ∧ tr.beginningOfTime = some 3 := by
  obtain ⟨tr, h⟩ := (c58_accept_iff cc (by decide) Nat.zero_le
    ⟨exEvs, true, [("beginningOfTime", .num (some 3) 3)]⟩ (exEvs_keys _ fun _ h => h)).2
    ⟨rfl, by intro v hv; simp [List.lookup] at hv; exact ⟨_, _, hv.symm⟩, exEvs_good, by decide⟩
  exact ⟨tr, h, by rw [c58_beginning_of_time h]; rfl⟩

/-- Headers of the examples. -/
theorem exHeader (evs : List (Event Nat)) : HeaderOk (⟨evs, true, []⟩ : Doc Nat) :=
  ⟨rfl, by intro v hv; simp at hv⟩

example (cc : CharClass) : fromDoc cc 0 ⟨exEvs ++ exEvs, true, []⟩ ≠ .error .panic := by
  intro h
  obtain ⟨-, h | ⟨pre, ev, post, h1, -, ⟨p, t, ts, n, dur, -, -, -, rfl⟩, -⟩⟩ :=
    (c10_panic_iff cc (by decide) Nat.zero_le _ (exEvs_keys _ (by simp))).1 h
  · simp [exEvs] at h
  · have : Event.x ⟨p, t, ts, some n, none, none, some [("detail", .str "")], none⟩ dur none none
        ∈ exEvs ++ exEvs := by simp only at h1; rw [h1]; simp
    simp [exEvs] at this

/-- A second process name after the example. -/
example (cc : CharClass) : fromDoc cc 0 ⟨exEvs ++ [.m (.processName 7 "clang-2" [] (some 7)
    ⟨some [], some 0, none⟩)], true, []⟩ = .error (.duplicateProcessName "clang" "clang-2") := by
  refine c09_duplicate_process cc (by decide) Nat.zero_le (exHeader _) (post := []) rfl ?_ exEvs_good
    (by decide) (by decide) (.inr rfl)
  intro ev hev d dur td es he
  rcases List.mem_append.1 hev with h | h
  · exact exEvs_keys _ (fun _ h => h) ev h d dur td es he
  · simp at h; rw [h] at he; cases he

example (cc : CharClass) : fromDoc cc 0 ⟨exEvs ++ [.m (.threadName 7 "other" [] (some 7)
    ⟨some [], some 0, none⟩)], true, []⟩ = .error (.duplicateThreadName "main" "other") := by
  refine c09_duplicate_thread cc (by decide) Nat.zero_le (exHeader _) (post := []) rfl ?_ exEvs_good
    (by decide) (by decide)
  intro ev hev d dur td es he
  rcases List.mem_append.1 hev with h | h
  · exact exEvs_keys _ (fun _ h => h) ev h d dur td es he
  · simp at h; rw [h] at he; cases he

example (cc : CharClass) : ∃ old, fromDoc cc 0 ⟨exEvs ++ exEvs.drop 2, true, []⟩ =
    .error (.duplicateGlobalStat "Frontend" old ⟨9, 1⟩) := by
  obtain ⟨old, h, -⟩ := c09_duplicate_statistic cc (by decide) Nat.zero_le
    (exHeader (exEvs ++ exEvs.drop 2)) (pre := exEvs) (n := "Frontend") (count := 1) (avg := 9) rfl
    (exEvs_keys _ (by intro ev h; rcases List.mem_append.1 h with h | h; exact h; exact List.mem_of_mem_drop h))
    exEvs_good (by decide) (by decide) (by decide) ⟨_, _, .refl _, rfl, rfl⟩
  exact ⟨old, h⟩

example (cc : CharClass) : fromDoc cc 0 ⟨exEvs.take 3, true, []⟩ = .error .noProcessName := by
  have hsub : ∀ ev ∈ exEvs.take 3, ev ∈ exEvs := fun _ h => List.mem_of_mem_take h
  refine c09_no_process_name cc (by decide) Nat.zero_le (exHeader _) (exEvs_keys _ hsub)
    ⟨fun ev h => exEvs_valid ev (hsub ev h), by decide, by decide, by decide, by decide, ?_⟩
    (by decide) (by decide)
  simp [exEvs, spanOf, Nested]

example (cc : CharClass) : fromDoc cc 0 ⟨exEvs ++ [.m (.processName 9 "clang" [] (some 9)
    ⟨some [], some 0, none⟩)], true, []⟩ = .error (.inconsistentPid 7 9) := by
  refine c08_detected cc (by decide) Nat.zero_le (exHeader _) (post := []) rfl ?_ exEvs_good
    (by decide) (q := 9) (by decide) (by decide)
  intro ev hev d dur td es he
  rcases List.mem_append.1 hev with h | h
  · exact exEvs_keys _ (fun _ h => h) ev h d dur td es he
  · simp at h; rw [h] at he; cases he

end Verif.Trace
