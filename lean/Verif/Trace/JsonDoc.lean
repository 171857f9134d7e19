/-
C74: from a JSON document to a trace, or its rejection.
-/
import Verif.Trace.JsonProps

set_option autoImplicit false
set_option linter.unusedSectionVars false
set_option linter.unusedSimpArgs false
set_option linter.unusedVariables false

namespace Verif.Trace.Ctf

open Verif.Trace

variable {F : Type}

/-! ## Specification -/

/-- An array of events. -/
def IsEvents (cast : Int → F) (j : Json F) (evs : List (Event F)) : Prop :=
  ∃ js, j = .arr js ∧ List.Forall₂ (Reads cast) js evs

/-- Name of the unit in which times are displayed. -/
def IsUnit (name : String) (j : Json F) : Prop := j = .str name ∨ j = .obj [(name, .null)]

/-- What must be true of the top of a document apart from its events. -/
structure Header (cast : Int → F) (l : Entries F) : Prop where
  /-- times are displayed in milliseconds -/
  unit : occ l "displayTimeUnit" = [] ∨ ∃ j, occ l "displayTimeUnit" = [j] ∧ IsUnit "ms" j
  /-- no data that clang does not produce -/
  quiet : ∀ k ∈ ["systemTraceEvents", "powerTraceAsString", "stackFrames", "samples", "controllerTraceDataKey"],
    occ l k = [] ∨ occ l k = [.null]
  /-- the last `beginningOfTime` is a number -/
  origin : ∀ j, (occ l "beginningOfTime").getLast? = some j → ∃ x, IsNum cast j x

/-! ## Reading the document -/

theorem readEvents_iff (cast : Int → F) (j : Json F) (evs : List (Event F)) :
    readEvents cast j = some evs ↔ IsEvents cast j evs := by
  unfold IsEvents readEvents
  cases j with
  | arr l =>
    simp only [readAll_iff, c74_reads, Json.arr.injEq]
    constructor
    · intro h; exact ⟨l, rfl, h⟩
    · rintro ⟨js, rfl, h⟩; exact h
  | _ => simp

theorem readUnit_iff (j : Json F) (b : Bool) : readUnit j = some b ↔ IsUnit (if b then "ms" else "ns") j := by
  unfold IsUnit readUnit
  constructor
  · intro h
    split at h <;> simp only [Option.some.injEq, reduceCtorEq] at h <;> subst h <;> simp
  · cases b <;> rintro (rfl | rfl) <;> rfl

/-- Everything `readDoc` looks at. -/
structure DocReads (cast : Int → F) (l : Entries F) (doc : Doc F) : Prop where
  events : Has l "traceEvents" (IsEvents cast) doc.events
  extra : doc.extra = toMap cast (others docFields l)
  rest : ∃ (ms : Bool) (a b e : Option String) (c d : Option Unit),
    ((occ l "displayTimeUnit" = [] ∧ ms = true) ∨
      ∃ j, occ l "displayTimeUnit" = [j] ∧ IsUnit (if ms then "ms" else "ns") j) ∧
    May l "systemTraceEvents" IsStr a ∧ May l "powerTraceAsString" IsStr b ∧
    May l "stackFrames" (fun j x => readFrames j = some x) c ∧ May l "samples" (fun j x => readSamples cast j = some x) d ∧
    May l "controllerTraceDataKey" IsStr e ∧
    doc.standardDefault = (ms && a.isNone && b.isNone && c.isNone && d.isNone && e.isNone)

theorem unitField_iff (l : Entries F) (h1 : (occ l "displayTimeUnit").length ≤ 1) (ms : Bool) :
    unitField (l.filter fun e => decide (e.1 ∈ docFields)) = some ms ↔
      ((occ l "displayTimeUnit" = [] ∧ ms = true) ∨
        ∃ j, occ l "displayTimeUnit" = [j] ∧ IsUnit (if ms then "ms" else "ns") j) := by
  unfold unitField
  rw [lookup_occ, occ_known docFields l _ (by decide)]
  match ho : occ l "displayTimeUnit" with
  | [] => simp [eq_comm]
  | [j] => simp [readUnit_iff]
  | a :: b :: t => rw [ho] at h1; simp at h1

theorem readDoc_iff (cast : Int → F) (j : Json F) (doc : Doc F) :
    readDoc cast j = some doc ↔ ∃ l, j = .obj l ∧ DocReads cast l doc := by
  cases j with
  | obj l =>
    simp only [Json.obj.injEq, exists_eq_left']
    simp only [readDoc]
    rw [visit_eq]
    by_cases h : ∀ k ∈ docFields, (occ l k).length ≤ 1
    · rw [if_pos h]
      simp only
      have r1 := fun x => required_iff (readEvents cast) _ (readEvents_iff cast) docFields l "traceEvents" (by decide) (h _ (by decide)) x
      have r2 := fun x => unitField_iff l (h _ (by decide)) x
      have r3 := fun x => optional_iff readStr _ (readStr_iff (F := F)) docFields l "systemTraceEvents" (by decide) (h _ (by decide)) rfl x
      have r4 := fun x => optional_iff readStr _ (readStr_iff (F := F)) docFields l "powerTraceAsString" (by decide) (h _ (by decide)) rfl x
      have r5 := fun x => optional_iff readFrames (fun j x => readFrames (F := F) j = some x) (fun _ _ => Iff.rfl) docFields l "stackFrames" (by decide) (h _ (by decide)) rfl x
      have r6 := fun x => optional_iff (readSamples cast) (fun j x => readSamples cast j = some x) (fun _ _ => Iff.rfl) docFields l "samples" (by decide) (h _ (by decide)) rfl x
      have r7 := fun x => optional_iff readStr _ (readStr_iff (F := F)) docFields l "controllerTraceDataKey" (by decide) (h _ (by decide)) rfl x
      constructor
      · intro hd
        split at hd
        · rename_i e1 e2 e3 e4 e5 e6 e7
          simp only [Option.some.injEq] at hd
          subst hd
          exact ⟨(r1 _).1 e1, rfl, _, _, _, _, _, _, (r2 _).1 e2, (r3 _).1 e3, (r4 _).1 e4, (r5 _).1 e5, (r6 _).1 e6,
            (r7 _).1 e7, rfl⟩
        · cases hd
      · rintro ⟨p1, p2, ms, a, b, e, c, d, q2, q3, q4, q5, q6, q7, q8⟩
        rw [(r1 _).2 p1, (r2 _).2 q2, (r3 _).2 q3, (r4 _).2 q4, (r5 _).2 q5, (r6 _).2 q6, (r7 _).2 q7]
        obtain ⟨evs, sd, ex⟩ := doc
        simp only at p2 q8 ⊢
        subst p2 q8
        rfl
    · rw [if_neg h]
      simp only [reduceCtorEq, false_iff]
      rintro ⟨p1, p2, ms, a, b, e, c, d, q2, q3, q4, q5, q6, q7, q8⟩
      apply h
      intro k hk
      simp only [docFields, List.mem_cons, List.not_mem_nil, or_false] at hk
      rcases hk with rfl | rfl | rfl | rfl | rfl | rfl | rfl
      · exact has_le p1
      · rcases q2 with ⟨q, -⟩ | ⟨j, q, -⟩ <;> simp [q]
      · exact may_le q3
      · exact may_le q4
      · exact may_le q5
      · exact may_le q6
      · exact may_le q7
  | _ => simp [readDoc]

theorem may_none {α : Type} {l : Entries F} {k : String} {P : Json F → α → Prop} {x : Option α} (h : May l k P x)
    (hx : x = none) : occ l k = [] ∨ occ l k = [.null] := by
  rcases h with ⟨-, h⟩ | ⟨y, j, e, -⟩
  · exact h
  · rw [hx] at e; cases e

theorem botOk_iff (cast : Int → F) (l : Entries F) :
    BotOk (toMap cast (others docFields l)) ↔
      ∀ j, (occ l "beginningOfTime").getLast? = some j → ∃ x, IsNum cast j x := by
  unfold BotOk
  rw [(c74_map cast _).2, occ_others docFields l _ (by decide)]
  cases (occ l "beginningOfTime").getLast? with
  | none => simp
  | some j =>
    simp only [Option.map_some, Option.some.injEq, forall_eq']
    unfold IsNum IsInt
    cases j with
    | num n => cases n <;> simp [toValue]
    | _ => simp [toValue]

theorem header_iff (cast : Int → F) (l : Entries F) (doc : Doc F) (h : DocReads cast l doc) :
    HeaderOk doc ↔ Header cast l := by
  obtain ⟨p1, p2, ms, a, b, e, c, d, q2, q3, q4, q5, q6, q7, q8⟩ := h
  unfold HeaderOk
  rw [p2, botOk_iff, q8]
  constructor
  · rintro ⟨h1, h2⟩
    simp only [Bool.and_eq_true, Option.isNone_iff_eq_none] at h1
    obtain ⟨⟨⟨⟨⟨h1, ha⟩, hb⟩, hc⟩, hd⟩, he⟩ := h1
    subst h1
    refine ⟨?_, ?_, h2⟩
    · rcases q2 with ⟨q, -⟩ | q
      · exact .inl q
      · exact .inr q
    · intro k hk
      simp only [List.mem_cons, List.not_mem_nil, or_false] at hk
      rcases hk with rfl | rfl | rfl | rfl | rfl
      · exact may_none q3 ha
      · exact may_none q4 hb
      · exact may_none q5 hc
      · exact may_none q6 hd
      · exact may_none q7 he
  · rintro ⟨h1, h2, h3⟩
    refine ⟨?_, h3⟩
    have hm : ∀ k ∈ ["systemTraceEvents", "powerTraceAsString", "stackFrames", "samples", "controllerTraceDataKey"],
        ∀ {α : Type} {P : Json F → α → Prop} {x : Option α}, (∀ y, ¬ P .null y) → May l k P x → x = none := by
      intro k hk α P x hn h
      rcases h with ⟨h, -⟩ | ⟨y, j, -, hj, hy⟩
      · exact h
      · rcases h2 k hk with h | h <;> rw [h] at hj
        · cases hj
        · simp only [List.cons.injEq, and_true] at hj
          subst hj
          exact absurd hy (hn y)
    have hms : ms = true := by
      rcases q2 with ⟨-, q⟩ | ⟨j, q, hu⟩
      · exact q
      · rcases h1 with h | ⟨j', h, hu'⟩ <;> rw [q] at h
        · cases h
        · simp only [List.cons.injEq, and_true] at h
          subst h
          cases ms with
          | true => rfl
          | false => rcases hu with rfl | rfl <;> rcases hu' with h | h <;> simp at h
    rw [hms, hm _ (by decide) (by simp [IsStr]) q3, hm _ (by decide) (by simp [IsStr]) q4,
      hm _ (by decide) (by simp [readFrames]) q5, hm _ (by decide) (by simp [readSamples]) q6,
      hm _ (by decide) (by simp [IsStr]) q7]
    rfl

/-- With the header as it must be, the document can be read as soon as its events can. -/
theorem docReads_of (cast : Int → F) (l : Entries F) (evs : List (Event F)) (he : Has l "traceEvents" (IsEvents cast) evs)
    (hh : Header cast l) : DocReads cast l ⟨evs, true, toMap cast (others docFields l)⟩ := by
  have hm : ∀ k ∈ ["systemTraceEvents", "powerTraceAsString", "stackFrames", "samples", "controllerTraceDataKey"],
      ∀ {α : Type} {P : Json F → α → Prop}, May l k P none := fun k hk α P => .inl ⟨rfl, hh.quiet k hk⟩
  refine ⟨he, rfl, true, none, none, none, none, none, ?_, hm _ (by decide), hm _ (by decide), hm _ (by decide),
    hm _ (by decide), hm _ (by decide), rfl⟩
  rcases hh.unit with h | h
  · exact .inl ⟨h, rfl⟩
  · exact .inr h

theorem reads_keys (cast : Int → F) {j : Json F} {ev : Event F} (h : Reads cast j ev) {d : DurEvent F} {dur : F}
    {td : Option F} {es : Option String} (he : ev = .x d dur td es) {args : Args F} (ha : d.args = some args) :
    KeysDistinct args := by
  subst he
  obtain ⟨o, -, h⟩ := h
  rcases h.2.1.args with ⟨h, -⟩ | ⟨y, j', h, -, l, -, hm⟩
  · rw [ha] at h; cases h
  · rw [ha] at h; cases h; rw [hm]; exact (c74_map cast l).1

theorem events_keys (cast : Int → F) {js : List (Json F)} {evs : List (Event F)} (h : List.Forall₂ (Reads cast) js evs) :
    KeysOk evs := by
  induction h with
  | nil => intro ev hev; cases hev
  | cons a _ ih =>
    intro ev hev d dur td es he args ha
    rcases List.mem_cons.1 hev with rfl | hev
    · exact reads_keys cast a he ha
    · exact ih ev hev d dur td es he args ha

theorem forall₂_mem_left {α β : Type} {R : α → β → Prop} {l : List α} {l' : List β} (h : List.Forall₂ R l l') {a : α}
    (ha : a ∈ l) : ∃ b, R a b := by
  induction h with
  | nil => cases ha
  | cons r _ ih =>
    rcases List.mem_cons.1 ha with rfl | h
    · exact ⟨_, r⟩
    · exact ih h

/-! ## Theorems -/

variable [LinearOrder F] [Zero F] [One F] [Add F] [Sub F]

/-- **C74.** A JSON document loads exactly when it is an object whose single `traceEvents` is an array of well-formed
events, whose other standard entries say nothing, whose beginning of time (if any) is a number, and whose events have the
allowed shapes and fit together. -/
theorem c74_accept_iff (cc : CharClass) {tmin : F} (h01 : (0 : F) ≤ 1) (htmin : ∀ x : F, tmin ≤ x) (cast : Int → F) (j : Json F) :
    (∃ tr, load cc tmin cast j = some (.ok tr)) ↔
      ∃ l evs, j = .obj l ∧ Has l "traceEvents" (IsEvents cast) evs ∧ Header cast l ∧ GoodEvents evs ∧
        evs.flatMap processNameOf ≠ [] := by
  unfold load
  simp only [Option.map_eq_some_iff]
  constructor
  · rintro ⟨tr, doc, hd, ht⟩
    obtain ⟨l, rfl, hr⟩ := (readDoc_iff cast j doc).1 hd
    obtain ⟨js, hj, js', rfl, hf⟩ := hr.events
    obtain ⟨h1, h2, h3, h4⟩ := (c58_accept_iff cc h01 htmin doc (events_keys cast hf)).1 ⟨tr, ht⟩
    exact ⟨l, doc.events, rfl, hr.events, (header_iff cast l doc hr).1 ⟨h1, h2⟩, h3, h4⟩
  · rintro ⟨l, evs, rfl, he, hh, hg, hp⟩
    have hr := docReads_of cast l evs he hh
    obtain ⟨js, hj, js', rfl, hf⟩ := he
    have hb := (header_iff cast l _ hr).2 hh
    obtain ⟨tr, ht⟩ := (c58_accept_iff cc h01 htmin _ (events_keys cast hf)).2 ⟨hb.1, hb.2, hg, hp⟩
    exact ⟨tr, _, (readDoc_iff cast _ _).2 ⟨l, rfl, hr⟩, ht⟩

/-- **C74.** Loading panics exactly when the document is otherwise fine up to its first problem, which is either that there
is no event at all, or an activity with an empty detail. -/
theorem c74_panic_iff (cc : CharClass) {tmin : F} (h01 : (0 : F) ≤ 1) (htmin : ∀ x : F, tmin ≤ x) (cast : Int → F) (j : Json F) :
    load cc tmin cast j = some (.error .panic) ↔
      ∃ l evs, j = .obj l ∧ Has l "traceEvents" (IsEvents cast) evs ∧ Header cast l ∧
        (evs = [] ∨ ∃ pre ev post, evs = pre ++ ev :: post ∧ GoodEvents pre ∧ EmptyDetailEvent ev ∧
          ∀ p ∈ pre.flatMap pidsOf, ∀ q ∈ pidsOf ev, p = q) := by
  unfold load
  simp only [Option.map_eq_some_iff]
  constructor
  · rintro ⟨doc, hd, ht⟩
    obtain ⟨l, rfl, hr⟩ := (readDoc_iff cast j doc).1 hd
    obtain ⟨js, hj, js', rfl, hf⟩ := hr.events
    obtain ⟨h1, h2⟩ := (c10_panic_iff cc h01 htmin doc (events_keys cast hf)).1 ht
    exact ⟨l, doc.events, rfl, hr.events, (header_iff cast l doc hr).1 h1, h2⟩
  · rintro ⟨l, evs, rfl, he, hh, hg⟩
    have hr := docReads_of cast l evs he hh
    obtain ⟨js, hj, js', rfl, hf⟩ := he
    exact ⟨_, (readDoc_iff cast _ _).2 ⟨l, rfl, hr⟩,
      (c10_panic_iff cc h01 htmin _ (events_keys cast hf)).2 ⟨(header_iff cast l _ hr).2 hh, hg⟩⟩

/-- **C74.** One event that is not well-formed is enough for the whole document to be rejected, even if every other event
is fine. -/
theorem c74_one_bad_event (cc : CharClass) (tmin : F) (cast : Int → F) (l : Entries F) (js : List (Json F))
    (hj : .arr js ∈ occ l "traceEvents") (jev : Json F) (hjev : jev ∈ js) (hbad : ∀ ev, ¬ Reads cast jev ev) :
    load cc tmin cast (.obj l) = none := by
  unfold load
  cases hd : readDoc cast (.obj l) with
  | none => rfl
  | some doc =>
    exfalso
    obtain ⟨l', e, hr⟩ := (readDoc_iff cast _ doc).1 hd
    simp only [Json.obj.injEq] at e
    subst e
    obtain ⟨j, hjs, js', rfl, hf⟩ := hr.events
    rw [hjs] at hj
    simp only [List.mem_singleton, Json.arr.injEq] at hj
    subst hj
    obtain ⟨ev, hev⟩ := forall₂_mem_left hf hjev
    exact hbad ev hev

/-- **C74.** In particular a document with an event of any other phase (instant, counter, asynchronous, flow, …) is
rejected. -/
theorem c74_other_phase (cc : CharClass) (tmin : F) (cast : Int → F) (l : Entries F) (js : List (Json F))
    (hj : .arr js ∈ occ l "traceEvents") (o : Entries F) (ho : .obj o ∈ js) (ph : String) (hph : .str ph ∈ occ o "ph")
    (hne : ph ∉ ["B", "E", "X", "M"]) : load cc tmin cast (.obj l) = none := by
  refine c74_one_bad_event cc tmin cast l js hj _ ho ?_
  rintro ev ⟨o', e, h⟩
  simp only [Json.obj.injEq] at e
  subst e
  have : ∀ s, Has o "ph" IsStr s → s = ph := by
    rintro s ⟨j, h1, h2⟩
    rw [h1] at hph
    simp only [List.mem_singleton] at hph
    rw [← hph] at h2
    exact (Json.str.inj h2).symm
  cases ev with
  | b d => exact hne (by rw [← this _ h.1]; simp)
  | e d => exact hne (by rw [← this _ h.1]; simp)
  | x d a b c => exact hne (by rw [← this _ h.1]; simp)
  | m m => exact hne (by rw [← this _ h.1]; simp)

/-- **C74.** So is a document that gives one of its standard entries twice. -/
theorem c74_twice (cc : CharClass) (tmin : F) (cast : Int → F) (l : Entries F) (k : String) (hk : k ∈ docFields)
    (h2 : 1 < (occ l k).length) : load cc tmin cast (.obj l) = none := by
  have h : visit docFields [] [] l = none := by
    rw [visit_eq, if_neg]
    intro h; have := h k hk; omega
  unfold load
  simp only [readDoc, h, Option.map_none]

/-- **C74.** On success the activities of the trace are the activity events of the document, in order, with the name,
detail, start, duration and end that the JSON text gives them. -/
theorem c74_activities {cc : CharClass} {tmin : F} {cast : Int → F} {j : Json F} {tr : ClangTrace F}
    (h : load cc tmin cast j = some (.ok tr)) :
    ∃ l js evs stats, j = .obj l ∧ occ l "traceEvents" = [.arr js] ∧ List.Forall₂ (Reads cast) js evs ∧
      List.Forall₂ RecordsActivity (evs.filter isActivity) stats ∧ Tree.load tmin stats = .ok tr.tree ∧
      Tree.allActivities tr.tree = List.range stats.length ∧ ∀ i, Tree.statOf tr.tree i = stats[i]? := by
  unfold load at h
  simp only [Option.map_eq_some_iff] at h
  obtain ⟨doc, hd, ht⟩ := h
  obtain ⟨l, rfl, hr⟩ := (readDoc_iff cast j doc).1 hd
  obtain ⟨js, hj, js', rfl, hf⟩ := hr.events
  obtain ⟨stats, h1, h2, h3, h4⟩ := c07_activities_kept ht
  exact ⟨l, js', doc.events, stats, rfl, hj, hf, h1, h2, h3, h4⟩

/-- **C74.** The beginning of time of the trace is the last one of the document. -/
theorem c74_origin {cc : CharClass} {tmin : F} {cast : Int → F} {l : Entries F} {tr : ClangTrace F}
    (h : load cc tmin cast (.obj l) = some (.ok tr)) (x : F) :
    tr.beginningOfTime = some x ↔ ∃ j, (occ l "beginningOfTime").getLast? = some j ∧ IsNum cast j x := by
  unfold load at h
  simp only [Option.map_eq_some_iff] at h
  obtain ⟨doc, hd, ht⟩ := h
  obtain ⟨l', e, hr⟩ := (readDoc_iff cast _ doc).1 hd
  simp only [Json.obj.injEq] at e
  subst e
  rw [c58_beginning_of_time ht, hr.extra, (c74_map cast _).2, occ_others docFields l _ (by decide)]
  cases (occ l "beginningOfTime").getLast? with
  | none => simp
  | some j =>
    simp only [Option.map_some, Option.bind_some, Option.some.injEq, exists_eq_left']
    unfold IsNum IsInt
    cases j with
    | num n => cases n <;> simp [toValue, eq_comm]
    | _ => simp [toValue]

/-- **C74.** When an event gives two stack traces in different notations the result depends on their order: a malformed
one hides the other if it comes first, and only then. -/
theorem c74_stack_order_violated (cast : Int → F) :
    ∃ (o o' : Entries F) (d d' : DurEvent F), o.Perm o' ∧ (o.map (·.1)).Nodup ∧
      readEvent cast (.obj o) = some (.b d) ∧ readEvent cast (.obj o') = some (.b d') ∧
      d.stackTrace = none ∧ d'.stackTrace = some "main" := by
  refine ⟨[("ph", .str "B"), ("pid", .num (.nat 1)), ("tid", .num (.nat 1)), ("ts", .num (.nat 5)), ("sf", .bool true),
      ("stack", .arr [.str "main"])],
    [("ph", .str "B"), ("pid", .num (.nat 1)), ("tid", .num (.nat 1)), ("ts", .num (.nat 5)), ("stack", .arr [.str "main"]),
      ("sf", .bool true)],
    ⟨1, 1, cast 5, none, none, none, none, none⟩, ⟨1, 1, cast 5, none, none, none, none, some "main"⟩, ?_, ?_, ?_, ?_, rfl, rfl⟩
  · exact .cons _ (.cons _ (.cons _ (.cons _ (.swap _ _ _))))
  · simp
  · simp [readEvent, tagged, visit, List.lookup, readDuration, durFields, required, optional, readI32, readInt, readF64,
      readStack, List.find?, readFrameId, readI64, readStr, readInline]
  · simp [readEvent, tagged, visit, List.lookup, readDuration, durFields, required, optional, readI32, readInt, readF64,
      readStack, List.find?, readFrameId, readI64, readStr, readInline, readAll]

/-- **C74.** The `args` object of an activity that has a detail has this only key, and the last string given counts. -/
theorem c74_detail (cast : Int → F) (l : Entries F) (s : String) :
    toMap cast l = [("detail", .str s)] ↔ (∀ e ∈ l, e.1 = "detail") ∧ (occ l "detail").getLast? = some (.str s) := by
  obtain ⟨h1, h2⟩ := c74_map cast l
  have hv : ∀ j : Json F, toValue cast j = .str s ↔ j = .str s := by
    intro j
    cases j with
    | num n => cases n <;> simp [toValue]
    | _ => simp [toValue]
  constructor
  · intro h
    rw [h] at h2
    constructor
    · intro e he
      by_contra hne
      have := h2 e.1
      have hb : (e.1 == "detail") = false := by simpa using hne
      simp only [List.lookup_cons, hb, List.lookup_nil] at this
      have hm : e.2 ∈ occ l e.1 := List.mem_map.2 ⟨e, List.mem_filter.2 ⟨he, by simp⟩, rfl⟩
      rw [eq_comm, Option.map_eq_none_iff, List.getLast?_eq_none_iff] at this
      rw [this] at hm; cases hm
    · have := h2 "detail"
      simp only [List.lookup_cons, beq_self_eq_true] at this
      rw [eq_comm, Option.map_eq_some_iff] at this
      obtain ⟨j, hj, ht⟩ := this
      rw [hj, (hv j).1 ht]
  · rintro ⟨hk, hl⟩
    have hd := h2 "detail"
    rw [hl] at hd
    have hother : ∀ k, k ≠ "detail" → (toMap cast l).lookup k = none := by
      intro k hne
      rw [h2 k]
      have : occ l k = [] := by
        unfold occ
        rw [List.map_eq_nil_iff, List.filter_eq_nil_iff]
        intro e he
        simp only [beq_iff_eq]
        intro e'; exact hne (by rw [← e', hk e he])
      rw [this]; rfl
    generalize toMap cast l = m at h1 hd hother ⊢
    match m with
    | [] => simp at hd
    | [(k, v)] =>
      by_cases hkd : k = "detail"
      · subst hkd
        simp only [List.lookup_cons, beq_self_eq_true, Option.map_some, Option.some.injEq] at hd
        rw [hd]; rfl
      · have := hother k hkd
        simp at this
    | (k, v) :: (k', v') :: t =>
      exfalso
      have hkd : k = "detail" := by
        by_contra hkd
        have := hother k hkd
        simp at this
      have hkd' : k' ≠ "detail" := by
        intro e
        simp only [KeysDistinct, List.map_cons, List.nodup_cons, List.mem_cons, not_or] at h1
        exact h1.1.1 (hkd.trans e.symm)
      have := hother k' hkd'
      have hb : (k' == k) = false := by rw [hkd]; simpa using hkd'
      simp [List.lookup_cons, hb] at this

/-! ## Examples -/

/-- A small trace as clang writes it. -/
def exJson : Json Nat := .obj [
  ("traceEvents", .arr [
    .obj [("pid", .num (.nat 7)), ("tid", .num (.nat 7)), ("ph", .str "X"), ("ts", .num (.nat 2)), ("dur", .num (.nat 3)),
      ("name", .str "Source"), ("args", .obj [("detail", .str "/a.h")])],
    .obj [("pid", .num (.nat 7)), ("tid", .num (.nat 7)), ("ph", .str "X"), ("ts", .num (.nat 2)), ("dur", .num (.nat 9)),
      ("name", .str "Frontend")],
    .obj [("pid", .num (.nat 7)), ("tid", .num (.nat 8)), ("ph", .str "X"), ("ts", .num (.nat 0)), ("dur", .num (.nat 9)),
      ("name", .str "Total Frontend"), ("args", .obj [("count", .num (.nat 1)), ("avg ms", .num (.nat 9))])],
    .obj [("cat", .str ""), ("pid", .num (.nat 7)), ("tid", .num (.nat 7)), ("ts", .num (.nat 0)), ("ph", .str "M"),
      ("name", .str "process_name"), ("args", .obj [("name", .str "clang")])],
    .obj [("cat", .str ""), ("pid", .num (.nat 7)), ("tid", .num (.nat 7)), ("ts", .num (.nat 0)), ("ph", .str "M"),
      ("name", .str "thread_name"), ("args", .obj [("name", .str "main")])]]),
  ("beginningOfTime", .num (.nat 3))]

def exCast (i : Int) : Nat := i.toNat

theorem exJson_doc : readDoc exCast exJson = some ⟨exEvs, true, [("beginningOfTime", .num (some 3) 3)]⟩ := by
  have hc : readCat (F := Nat) (.str "") = some [] := by simp [readCat, splitComma, categories]
  simp [readDoc, exJson, visit, docFields, List.lookup, required, optional, unitField, readEvents, readAll, readEvent, tagged,
    readDuration, durFields, readI32, readInt, readF64, readStr, readStack, readMap, readOpt, toMap, mapInsert, toValue,
    readComplete, readMeta, metaKind, readMetaWith, readArgs, readOptions, hc, exCast, exEvs]

/-- The document of the example loads. -/
example (cc : CharClass) : ∃ tr, load cc 0 exCast exJson = some (.ok tr) ∧ tr.beginningOfTime = some 3 ∧
    (Tree.allActivities tr.tree).length = 2 := by
  obtain ⟨tr, ht⟩ := (c58_accept_iff cc (by decide) Nat.zero_le
    ⟨exEvs, true, [("beginningOfTime", .num (some 3) 3)]⟩ (exEvs_keys _ fun _ h => h)).2
    ⟨rfl, by intro v hv; simp [List.lookup] at hv; exact ⟨_, _, hv.symm⟩, exEvs_good, by decide⟩
  refine ⟨tr, by rw [load, exJson_doc, Option.map_some, ht], by rw [c58_beginning_of_time ht]; rfl, ?_⟩
  obtain ⟨stats, h1, h2, h3, h4⟩ := c07_activities_kept ht
  have := h1.length_eq
  rw [h3, List.length_range, ← this]
  rfl

/-- The same document with one instant event is rejected. -/
example (cc : CharClass) : load cc 0 exCast (.obj [("traceEvents", .arr [
    .obj [("ph", .str "i"), ("pid", .num (.nat 7)), ("tid", .num (.nat 7)), ("ts", .num (.nat 2)), ("name", .str "mark")]])]) =
    none :=
  c74_other_phase cc 0 exCast _ _ (by simp [occ]; rfl) _ (by simp; rfl) "i" (by simp [occ]) (by decide)

/-- A document without events panics. -/
example (cc : CharClass) : load cc 0 exCast (.obj [("traceEvents", .arr [])]) = some (.error .panic) := by
  rw [c74_panic_iff cc (by decide) Nat.zero_le]
  refine ⟨_, [], rfl, ⟨_, by simp [occ], [], rfl, .nil⟩, ⟨.inl (by simp [occ]), ?_, ?_⟩, .inl rfl⟩
  · intro k hk
    simp only [List.mem_cons, List.not_mem_nil, or_false] at hk
    rcases hk with rfl | rfl | rfl | rfl | rfl <;> exact .inl (by simp [occ])
  · intro j hj; simp [occ] at hj

/-- Unknown keys and order of keys, on an event of the example. -/
example : readEvent exCast (.obj [("ts", .num (.nat 2)), ("id", .arr []), ("ph", .str "X"), ("dur", .num (.nat 9)),
      ("name", .str "Frontend"), ("tid", .num (.nat 7)), ("pid", .num (.nat 7))]) =
    some (.x ⟨7, 7, 2, some "Frontend", none, none, none, none⟩ 9 none none) := by
  refine (c74_unknown_ignored exCast [("ts", .num (.nat 2))] _ "id" (.arr []) (by decide)).trans ?_
  refine (c74_key_order exCast _ _ (List.reverse_perm _).symm (by simp) (by simp) (by simp)).trans ?_
  simp [visit, List.lookup, required, optional, readEvent, tagged, readDuration, durFields, readI32, readInt, readF64, readStr,
    readStack, readOpt, readComplete, exCast]

end Verif.Trace.Ctf
