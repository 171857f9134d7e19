import Verif.Trace.JsonDoc

/-!
# Property C74: malformed documents

Which JSON documents are reported as malformed (`CtfParseError`) rather than refused for their content: an exact
specification of everything that `TraceDataObject` reads, including the stack frames and samples which clang never emits.
-/

set_option autoImplicit false
set_option linter.unusedSectionVars false
set_option linter.unusedVariables false
set_option linter.unusedSimpArgs false

namespace Verif.Trace.Ctf

variable {F : Type}

/-! ## Specification -/

/-- Every key is one of these. -/
def OnlyKeys (o : Entries F) (known : List String) : Prop := ∀ e ∈ o, e.1 ∈ known

/-- Null or a meaningful value. -/
def Nullable {α : Type} (P : Json F → α → Prop) (j : Json F) : Prop := j = .null ∨ ∃ x, P j x

/-- A stack frame: an object with these fields and no others, or an array with their values. -/
def IsFrame (j : Json F) : Prop :=
  (∃ o, j = .obj o ∧ OnlyKeys o ["category", "name", "parent"] ∧ (∃ c, Has o "category" IsStr c) ∧
    (∃ n, Has o "name" IsStr n) ∧ ∃ p, May o "parent" IsFrameId p) ∨
  ∃ c n p, j = .arr [.str c, .str n, p] ∧ Nullable IsFrameId p

/-- A sample: an object with these fields and no others, or an array with their values. -/
def IsSample (cast : Int → F) (j : Json F) : Prop :=
  (∃ o, j = .obj o ∧ OnlyKeys o ["cpu", "tid", "ts", "name", "sf", "weight"] ∧ (∃ x, May o "cpu" IsI32 x) ∧
    (∃ x, Has o "tid" IsI32 x) ∧ (∃ x, Has o "ts" (IsNum cast) x) ∧ (∃ x, Has o "name" IsStr x) ∧
    (∃ x, Has o "sf" IsFrameId x) ∧ ∃ x, Has o "weight" IsI64 x) ∨
  ∃ cpu tid ts name sf weight, j = .arr [cpu, tid, ts, .str name, sf, weight] ∧ Nullable IsI32 cpu ∧
    (∃ x, IsI32 tid x) ∧ (∃ x, IsNum cast ts x) ∧ (∃ x, IsFrameId sf x) ∧ ∃ x, IsI64 weight x

/-- A document that can be read. -/
structure WellFormed (cast : Int → F) (o : Entries F) : Prop where
  events : ∃ js, occ o "traceEvents" = [.arr js] ∧ ∀ j ∈ js, ∃ ev, Reads cast j ev
  unit : occ o "displayTimeUnit" = [] ∨ ∃ j, occ o "displayTimeUnit" = [j] ∧ (IsUnit "ms" j ∨ IsUnit "ns" j)
  texts : ∀ k ∈ ["systemTraceEvents", "powerTraceAsString", "controllerTraceDataKey"], ∃ x, May o k IsStr x
  frames : occ o "stackFrames" = [] ∨ occ o "stackFrames" = [.null] ∨
    ∃ fs, occ o "stackFrames" = [.obj fs] ∧ ∀ e ∈ fs, IsFrame e.2
  samples : occ o "samples" = [] ∨ occ o "samples" = [.null] ∨
    ∃ l, occ o "samples" = [.arr l] ∧ ∀ j ∈ l, IsSample cast j

/-! ## Proofs -/

theorem readOpt_iff {α : Type} (r : Json F → Option α) (P : Json F → α → Prop) (hr : ∀ j x, r j = some x ↔ P j x)
    (hn : r .null = none) (j : Json F) : (∃ x, readOpt r j = some x) ↔ Nullable P j := by
  unfold Nullable
  cases j with
  | null => simp [readOpt]
  | _ => simp [readOpt, ← hr]

theorem others_nil (known : List String) (o : Entries F) :
    (o.filter fun e => !decide (e.1 ∈ known)) = [] ↔ OnlyKeys o known := by
  rw [List.filter_eq_nil_iff]
  unfold OnlyKeys
  simp

theorem readFrame_iff (j : Json F) (u : Unit) : readFrame j = some u ↔ IsFrame j := by
  unfold IsFrame
  cases j with
  | obj o =>
    simp only [readFrame, Json.obj.injEq, exists_eq_left', reduceCtorEq, false_and, exists_false, or_false]
    rw [visit_eq]
    by_cases h : ∀ k ∈ ["category", "name", "parent"], (occ o k).length ≤ 1
    · rw [if_pos h]
      have r1 := fun x => required_iff readStr _ (readStr_iff (F := F)) ["category", "name", "parent"] o "category" (by decide) (h _ (by decide)) x
      have r2 := fun x => required_iff readStr _ (readStr_iff (F := F)) ["category", "name", "parent"] o "name" (by decide) (h _ (by decide)) x
      have r3 := fun x => optional_iff readFrameId _ (readFrameId_iff (F := F)) ["category", "name", "parent"] o "parent" (by decide) (h _ (by decide)) rfl x
      simp only [← r1, ← r2, ← r3, ← others_nil]
      constructor
      · intro hd
        split at hd
        · rename_i s heq
          simp only [Option.some.injEq, Prod.mk.injEq] at heq
          obtain ⟨rfl, hnil⟩ := heq
          split at hd
          · rename_i x y z h1 h2 h3
            exact ⟨hnil, ⟨_, h1⟩, ⟨_, h2⟩, _, h3⟩
          · cases hd
        · cases hd
      · rintro ⟨hn, ⟨a, ha⟩, ⟨b, hb⟩, c, hc⟩
        simp only [hn, ha, hb, hc]
    · rw [if_neg h]
      simp only [reduceCtorEq, false_iff]
      rintro ⟨-, ⟨a, ha⟩, ⟨b, hb⟩, c, hc⟩
      apply h
      intro k hk
      simp only [List.mem_cons, List.not_mem_nil, or_false] at hk
      rcases hk with rfl | rfl | rfl
      · exact has_le ha
      · exact has_le hb
      · exact may_le hc
  | arr l =>
    simp only [reduceCtorEq, false_and, exists_false, false_or, Json.arr.injEq]
    match l with
    | [c, n, p] =>
      simp only [readFrame, List.cons.injEq, and_true]
      have hp := readOpt_iff readFrameId _ (readFrameId_iff (F := F)) rfl p
      constructor
      · intro hd
        split at hd
        · rename_i x y z h1 h2 h3
          exact ⟨x, y, p, ⟨(readStr_iff _ _).1 h1, (readStr_iff _ _).1 h2, rfl⟩, hp.1 ⟨_, h3⟩⟩
        · cases hd
      · rintro ⟨x, y, z, ⟨rfl, rfl, rfl⟩, h⟩
        obtain ⟨w, hw⟩ := hp.2 h
        simp [readStr, hw]
    | [] => simp [readFrame]
    | [_] => simp [readFrame]
    | [_, _] => simp [readFrame]
    | _ :: _ :: _ :: _ :: _ => simp [readFrame]
  | _ => simp [readFrame]

theorem readSample_iff (cast : Int → F) (j : Json F) (u : Unit) : readSample cast j = some u ↔ IsSample cast j := by
  unfold IsSample
  cases j with
  | obj o =>
    simp only [readSample, Json.obj.injEq, exists_eq_left', reduceCtorEq, false_and, exists_false, or_false]
    rw [visit_eq]
    by_cases h : ∀ k ∈ ["cpu", "tid", "ts", "name", "sf", "weight"], (occ o k).length ≤ 1
    · rw [if_pos h]
      have r1 := fun x => optional_iff readI32 _ (readI32_iff (F := F)) ["cpu", "tid", "ts", "name", "sf", "weight"] o "cpu" (by decide) (h _ (by decide)) rfl x
      have r2 := fun x => required_iff readI32 _ (readI32_iff (F := F)) ["cpu", "tid", "ts", "name", "sf", "weight"] o "tid" (by decide) (h _ (by decide)) x
      have r3 := fun x => required_iff (readF64 cast) _ (readF64_iff cast) ["cpu", "tid", "ts", "name", "sf", "weight"] o "ts" (by decide) (h _ (by decide)) x
      have r4 := fun x => required_iff readStr _ (readStr_iff (F := F)) ["cpu", "tid", "ts", "name", "sf", "weight"] o "name" (by decide) (h _ (by decide)) x
      have r5 := fun x => required_iff readFrameId _ (readFrameId_iff (F := F)) ["cpu", "tid", "ts", "name", "sf", "weight"] o "sf" (by decide) (h _ (by decide)) x
      have r6 := fun x => required_iff readI64 _ (readI64_iff (F := F)) ["cpu", "tid", "ts", "name", "sf", "weight"] o "weight" (by decide) (h _ (by decide)) x
      simp only [← r1, ← r2, ← r3, ← r4, ← r5, ← r6, ← others_nil]
      constructor
      · intro hd
        split at hd
        · rename_i s heq
          simp only [Option.some.injEq, Prod.mk.injEq] at heq
          obtain ⟨rfl, hnil⟩ := heq
          split at hd
          · rename_i h1 h2 h3 h4 h5 h6
            exact ⟨hnil, ⟨_, h1⟩, ⟨_, h2⟩, ⟨_, h3⟩, ⟨_, h4⟩, ⟨_, h5⟩, _, h6⟩
          · cases hd
        · cases hd
      · rintro ⟨hn, ⟨a, ha⟩, ⟨b, hb⟩, ⟨c, hc⟩, ⟨d, hd⟩, ⟨e, he⟩, f, hf⟩
        simp only [hn, ha, hb, hc, hd, he, hf]
    · rw [if_neg h]
      simp only [reduceCtorEq, false_iff]
      rintro ⟨-, ⟨a, ha⟩, ⟨b, hb⟩, ⟨c, hc⟩, ⟨d, hd⟩, ⟨e, he⟩, f, hf⟩
      apply h
      intro k hk
      simp only [List.mem_cons, List.not_mem_nil, or_false] at hk
      rcases hk with rfl | rfl | rfl | rfl | rfl | rfl
      · exact may_le ha
      · exact has_le hb
      · exact has_le hc
      · exact has_le hd
      · exact has_le he
      · exact has_le hf
  | arr l =>
    simp only [reduceCtorEq, false_and, exists_false, false_or, Json.arr.injEq]
    match l with
    | [c, t, ts, n, f, w] =>
      simp only [readSample, List.cons.injEq, and_true]
      have hp := readOpt_iff readI32 _ (readI32_iff (F := F)) rfl c
      constructor
      · intro hd
        split at hd
        · rename_i h1 h2 h3 h4 h5 h6
          exact ⟨c, t, ts, _, f, w, ⟨rfl, rfl, rfl, (readStr_iff _ _).1 h4, rfl, rfl⟩, hp.1 ⟨_, h1⟩, ⟨_, (readI32_iff _ _).1 h2⟩,
            ⟨_, (readF64_iff cast _ _).1 h3⟩, ⟨_, (readFrameId_iff _ _).1 h5⟩, ⟨_, (readI64_iff _ _).1 h6⟩⟩
        · cases hd
      · rintro ⟨c', t', ts', n', f', w', ⟨rfl, rfl, rfl, rfl, rfl, rfl⟩, h1, ⟨_, h2⟩, ⟨_, h3⟩, ⟨_, h5⟩, ⟨_, h6⟩⟩
        obtain ⟨w, hw⟩ := hp.2 h1
        simp [readStr, hw, (readI32_iff _ _).2 h2, (readF64_iff cast _ _).2 h3, (readFrameId_iff _ _).2 h5,
          (readI64_iff _ _).2 h6]
    | [] => simp [readSample]
    | [_] => simp [readSample]
    | [_, _] => simp [readSample]
    | [_, _, _] => simp [readSample]
    | [_, _, _, _] => simp [readSample]
    | [_, _, _, _, _] => simp [readSample]
    | _ :: _ :: _ :: _ :: _ :: _ :: _ :: _ => simp [readSample]
  | _ => simp [readSample]

theorem readAll_exists {α : Type} (r : Json F → Option α) (l : List (Json F)) :
    (∃ xs, readAll r l = some xs) ↔ ∀ j ∈ l, ∃ x, r j = some x := by
  induction l with
  | nil => simp [readAll]
  | cons j l ih =>
    simp only [readAll, List.forall_mem_cons, ← ih]
    cases r j with
    | none => simp
    | some x =>
      cases readAll r l with
      | none => simp
      | some y => simp

theorem readFrames_iff (j : Json F) (u : Unit) :
    readFrames j = some u ↔ ∃ fs, j = .obj fs ∧ ∀ e ∈ fs, IsFrame e.2 := by
  cases j with
  | obj fs =>
    have h := readAll_exists readFrame (fs.map (·.2))
    simp only [readFrames, Json.obj.injEq, exists_eq_left', Option.map_eq_some_iff]
    constructor
    · rintro ⟨x, hx, -⟩ e he
      obtain ⟨y, hy⟩ := h.1 ⟨x, hx⟩ e.2 (List.mem_map_of_mem he)
      exact (readFrame_iff _ _).1 hy
    · intro hf
      obtain ⟨x, hx⟩ := h.2 (by
        intro j hj
        obtain ⟨e, he, rfl⟩ := List.mem_map.1 hj
        exact ⟨(), (readFrame_iff _ _).2 (hf e he)⟩)
      exact ⟨x, hx, trivial⟩
  | _ => simp [readFrames]

theorem readSamples_iff (cast : Int → F) (j : Json F) (u : Unit) :
    readSamples cast j = some u ↔ ∃ l, j = .arr l ∧ ∀ s ∈ l, IsSample cast s := by
  cases j with
  | arr l =>
    have h := readAll_exists (readSample cast) l
    simp only [readSamples, Json.arr.injEq, exists_eq_left', Option.map_eq_some_iff]
    constructor
    · rintro ⟨x, hx, -⟩ e he
      obtain ⟨y, hy⟩ := h.1 ⟨x, hx⟩ e he
      exact (readSample_iff cast _ _).1 hy
    · intro hf
      obtain ⟨x, hx⟩ := h.2 (fun j hj => ⟨(), (readSample_iff cast _ _).2 (hf j hj)⟩)
      exact ⟨x, hx, trivial⟩
  | _ => simp [readSamples]

theorem reads_list (cast : Int → F) (js : List (Json F)) :
    (∃ evs, List.Forall₂ (Reads cast) js evs) ↔ ∀ j ∈ js, ∃ ev, Reads cast j ev := by
  constructor
  · rintro ⟨evs, h⟩ j hj
    exact forall₂_mem_left h hj
  · intro h
    induction js with
    | nil => exact ⟨[], .nil⟩
    | cons j js ih =>
      obtain ⟨ev, he⟩ := h j (by simp)
      obtain ⟨evs, hs⟩ := ih (fun j hj => h j (by simp [hj]))
      exact ⟨ev :: evs, .cons he hs⟩

theorem docReads_iff (cast : Int → F) (o : Entries F) : (∃ doc, DocReads cast o doc) ↔ WellFormed cast o := by
  constructor
  · rintro ⟨doc, h1, -, ms, a, b, e, c, d, q2, q3, q4, q5, q6, q7, -⟩
    refine ⟨?_, ?_, ?_, ?_, ?_⟩
    · obtain ⟨j, hj, js, rfl, he⟩ := h1
      exact ⟨js, hj, (reads_list cast js).1 ⟨_, he⟩⟩
    · rcases q2 with ⟨h, -⟩ | ⟨j, hj, hu⟩
      · exact .inl h
      · refine .inr ⟨j, hj, ?_⟩
        cases ms
        · exact .inr hu
        · exact .inl hu
    · intro k hk
      simp only [List.mem_cons, List.not_mem_nil, or_false] at hk
      rcases hk with rfl | rfl | rfl
      exacts [⟨_, q3⟩, ⟨_, q4⟩, ⟨_, q7⟩]
    · rcases q5 with ⟨-, h | h⟩ | ⟨y, j, -, hj, hy⟩
      · exact .inl h
      · exact .inr (.inl h)
      · obtain ⟨fs, rfl, hf⟩ := (readFrames_iff _ _).1 hy
        exact .inr (.inr ⟨fs, hj, hf⟩)
    · rcases q6 with ⟨-, h | h⟩ | ⟨y, j, -, hj, hy⟩
      · exact .inl h
      · exact .inr (.inl h)
      · obtain ⟨fs, rfl, hf⟩ := (readSamples_iff cast _ _).1 hy
        exact .inr (.inr ⟨fs, hj, hf⟩)
  · rintro ⟨⟨js, hjs, hev⟩, hu, ht, hf, hs⟩
    obtain ⟨evs, he⟩ := (reads_list cast js).2 hev
    have q2 : ∃ ms : Bool, (occ o "displayTimeUnit" = [] ∧ ms = true) ∨
        ∃ j, occ o "displayTimeUnit" = [j] ∧ IsUnit (if ms then "ms" else "ns") j := by
      rcases hu with h | ⟨j, hj, h | h⟩
      · exact ⟨true, .inl ⟨h, rfl⟩⟩
      · exact ⟨true, .inr ⟨j, hj, h⟩⟩
      · exact ⟨false, .inr ⟨j, hj, h⟩⟩
    obtain ⟨ms, q2⟩ := q2
    obtain ⟨a, q3⟩ := ht "systemTraceEvents" (by decide)
    obtain ⟨b, q4⟩ := ht "powerTraceAsString" (by decide)
    obtain ⟨e, q7⟩ := ht "controllerTraceDataKey" (by decide)
    have q5 : ∃ c, May o "stackFrames" (fun j x => readFrames j = some x) c := by
      rcases hf with h | h | ⟨fs, h, hfs⟩
      · exact ⟨none, .inl ⟨rfl, .inl h⟩⟩
      · exact ⟨none, .inl ⟨rfl, .inr h⟩⟩
      · exact ⟨some (), .inr ⟨(), _, rfl, h, (readFrames_iff _ _).2 ⟨fs, rfl, hfs⟩⟩⟩
    have q6 : ∃ c, May o "samples" (fun j x => readSamples cast j = some x) c := by
      rcases hs with h | h | ⟨fs, h, hfs⟩
      · exact ⟨none, .inl ⟨rfl, .inl h⟩⟩
      · exact ⟨none, .inl ⟨rfl, .inr h⟩⟩
      · exact ⟨some (), .inr ⟨(), _, rfl, h, (readSamples_iff cast _ _).2 ⟨fs, rfl, hfs⟩⟩⟩
    obtain ⟨c, q5⟩ := q5
    obtain ⟨d, q6⟩ := q6
    exact ⟨⟨evs, _, toMap cast (others docFields o)⟩, ⟨_, hjs, js, rfl, he⟩, rfl, ms, a, b, e, c, d, q2, q3, q4, q5, q6, q7, rfl⟩

variable [LinearOrder F] [Zero F] [One F] [Add F] [Sub F]

/-- **C74** a JSON document is reported as malformed exactly when it is not a well-formed object in the sense of
`WellFormed`: every other refusal is about its content. -/
theorem c74_malformed_iff (cc : CharClass) (tmin : F) (cast : Int → F) (j : Json F) :
    load cc tmin cast j = none ↔ ¬ ∃ o, j = .obj o ∧ WellFormed cast o := by
  unfold load
  rw [Option.map_eq_none_iff]
  have h : (∃ doc, readDoc cast j = some doc) ↔ ∃ o, j = .obj o ∧ WellFormed cast o := by
    simp only [readDoc_iff, ← docReads_iff]
    constructor
    · rintro ⟨doc, o, h1, h2⟩; exact ⟨o, h1, doc, h2⟩
    · rintro ⟨o, h1, doc, h2⟩; exact ⟨doc, o, h1, h2⟩
  rw [← h]
  cases readDoc cast j <;> simp

/-! ## Witnesses -/

/-- Samples in both notations. -/
example : IsSample (F := Nat) Int.toNat (.obj [("name", .str "n"), ("tid", .num (.nat 1)), ("ts", .num (.nat 2)), ("sf", .str "f"),
    ("weight", .num (.nat 1))]) ∧
    IsSample (F := Nat) Int.toNat (.arr [.null, .num (.nat 1), .num (.nat 2), .str "n", .num (.nat 3), .num (.nat 1)]) := by
  constructor <;> rw [← readSample_iff _ _ ()] <;> rfl

/-- A sample with an unknown field, or with one value too many, makes the document malformed. -/
example (cc : CharClass) : load (F := Nat) cc 0 Int.toNat (.obj [("traceEvents", .arr []), ("samples", .arr [.arr
    [.null, .num (.nat 1), .num (.nat 2), .str "n", .num (.nat 3), .num (.nat 1), .null]])]) = none := rfl

example (cc : CharClass) : load (F := Nat) cc 0 Int.toNat (.obj [("traceEvents", .arr []), ("samples", .arr [])]) ≠ none := by
  have : readDoc (F := Nat) Int.toNat (.obj [("traceEvents", .arr []), ("samples", .arr [])]) ≠ none := by decide
  unfold load
  rw [ne_eq, Option.map_eq_none_iff]; exact this

end Verif.Trace.Ctf
