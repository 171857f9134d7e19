/-
C74: from JSON values to trace events (clang-time-trace/src/ctf/{mod,stack}.rs, ctf/events/{duration,metadata}.rs).

`serde_json` turns the text into a JSON value; keys of objects stay in the order of the text and may repeat. This file
models what the code generated by `#[derive(Deserialize)]` with the attributes of those files does with that value
(serde 1.0: internally tagged enums, `flatten`, `untagged`, `from`, `default`, `deny_unknown_fields`). All failures are
one `CtfParseError`, so a reader returns an `Option`. JSON text, its nesting limit and number syntax are in JsonText.lean (C79).
-/
import Verif.Trace.Accept

set_option autoImplicit false
set_option linter.unusedSectionVars false
set_option linter.unusedSimpArgs false
set_option linter.unusedVariables false

namespace Verif.Trace.Ctf

open Verif.Trace

/-! ## JSON values -/

/-- `serde_json` numbers: `u64`, negative `i64` (`neg n` is `-(n+1)`), everything else a finite `f64`. -/
inductive Num (F : Type) where
  | nat (n : Nat)
  | neg (n : Nat)
  | float (f : F)

/-- A JSON value; objects as lists of entries in the order of the text. -/
inductive Json (F : Type) where
  | null
  | bool (b : Bool)
  | num (n : Num F)
  | str (s : String)
  | arr (l : List (Json F))
  | obj (l : List (String × Json F))

/-- Entries of an object. -/
abbrev Entries (F : Type) := List (String × Json F)

variable {F : Type}

/-! ## Model: scalar types -/

/-- Integers of a type with the given bounds (`i32`, `i64`): floats are not accepted. -/
def readInt (lo hi : Int) : Json F → Option Int
  | .num (.nat n) => if lo ≤ (n : Int) ∧ (n : Int) ≤ hi then some n else none
  | .num (.neg n) => if lo ≤ -((n : Int) + 1) ∧ -((n : Int) + 1) ≤ hi then some (-((n : Int) + 1)) else none
  | _ => none

/-- `Pid`, `Tid`, `CpuId` = `i32` (ctf/mod.rs:180-191) -/
def readI32 : Json F → Option Int := readInt (-2147483648) 2147483647

/-- `i64`: `SampleWeight` (ctf/mod.rs:187), `sort_order` (metadata.rs:146), `RawStackFrameId::Int` (stack.rs:54) -/
def readI64 : Json F → Option Int := readInt (-9223372036854775808) 9223372036854775807

/-- `Timestamp`, `Duration` = `f64` (ctf/mod.rs:124-127): integers are converted, `cast` is that conversion. -/
def readF64 (cast : Int → F) : Json F → Option F
  | .num (.nat n) => some (cast n)
  | .num (.neg n) => some (cast (-((n : Int) + 1)))
  | .num (.float f) => some f
  | _ => none

/-- `Box<str>` -/
def readStr : Json F → Option String
  | .str s => some s
  | _ => none

/-- `split(',')` (ctf/mod.rs:200) -/
def splitComma : List Char → List (List Char)
  | [] => [[]]
  | c :: cs =>
    if c = ',' then [] :: splitComma cs
    else
      match splitComma cs with
      | [] => [[c]]
      | p :: ps => (c :: p) :: ps

/-- `EventCategories`, `from = "Box<str>"` (ctf/mod.rs:194-206) -/
def readCat : Json F → Option (List String)
  | .str s => some (categories ((splitComma s.toList).map String.ofList))
  | _ => none

/-- `json::Value`, as seen by the code (Trace/Model.lean): what is inside arrays and objects is not looked at. -/
def toValue (cast : Int → F) : Json F → JVal F
  | .null => .null
  | .bool b => .bool b
  | .num (.nat n) => .num (some n) (cast n)
  | .num (.neg n) => .num none (cast (-((n : Int) + 1)))
  | .num (.float f) => .num none f
  | .str s => .str s
  | .arr _ => .arr
  | .obj _ => .obj

/-- `HashMap::insert` -/
def mapInsert {α : Type} (k : String) (v : α) : List (String × α) → List (String × α)
  | [] => [(k, v)]
  | (k', v') :: m => if k' = k then (k, v) :: m else (k', v') :: mapInsert k v m

/-- `HashMap<Box<str>, json::Value>`: entries are inserted one by one. The iteration order, which is unspecified, is taken
to be that of insertion; C07-C13 and C58 hold for all orders. -/
def toMap (cast : Int → F) (l : Entries F) : Args F :=
  l.foldl (fun m e => mapInsert e.1 (toValue cast e.2) m) []

/-- `HashMap<Box<str>, json::Value>` from a value -/
def readMap (cast : Int → F) : Json F → Option (Args F)
  | .obj l => some (toMap cast l)
  | _ => none

/-- `Option<T>`: `null` is `None`. -/
def readOpt {α : Type} (r : Json F → Option α) : Json F → Option (Option α)
  | .null => some none
  | j => (r j).map some

/-! ## Model: structs and enums -/

/-- Loop of a derived `visit_map`: entries with a known key fill the field, which fails if it is already filled; the
others are collected (for flattened fields). -/
def visit (known : List String) : Entries F → Entries F → Entries F → Option (Entries F × Entries F)
  | slots, rest, [] => some (slots, rest)
  | slots, rest, (k, v) :: l =>
    if k ∈ known then
      match slots.lookup k with
      | some _ => none
      | none => visit known (slots ++ [(k, v)]) rest l
    else visit known slots (rest ++ [(k, v)]) l

/-- Value of a mandatory field: an error if it is missing. -/
def required {α : Type} (r : Json F → Option α) (slots : Entries F) (k : String) : Option α :=
  match slots.lookup k with
  | none => none
  | some j => r j

/-- Value of a field of an `Option` type: `None` if it is missing. -/
def optional {α : Type} (r : Json F → Option α) (slots : Entries F) (k : String) : Option (Option α) :=
  match slots.lookup k with
  | none => some none
  | some j => readOpt r j

/-- Internally tagged enums: the tag must occur exactly once; the other entries are buffered. -/
def tagged (tag : String) (l : Entries F) : Option (Json F × Entries F) :=
  match visit [tag] [] [] l with
  | none => none
  | some (slots, rest) => (slots.lookup tag).map fun j => (j, rest)

/-- `StackFrameId` from `RawStackFrameId` (stack.rs:34-56) -/
def readFrameId (j : Json F) : Option String :=
  match readI64 j with
  | some i => some (toString i)
  | none => readStr j

/-- All elements of a list -/
def readAll {α : Type} (r : Json F → Option α) : List (Json F) → Option (List α)
  | [] => some []
  | j :: l =>
    match r j, readAll r l with
    | some x, some xs => some (x :: xs)
    | _, _ => none

/-- `Box<[Box<str>]>` (stack.rs:16, 30); see `readStack` for the payload -/
def readInline : Json F → Option String
  | .arr l => (readAll readStr l).map fun xs => xs.getLastD ""
  | _ => none

/-- Flattened `Option<StackTrace>` / `Option<EndStackTrace>` (stack.rs:8-31): the first entry whose key names one of the
two variants is taken; an error while reading it gives `None` and is not reported. The payload does not matter to the
program: a frame id is kept, an inline stack is kept as its last element. -/
def readStack (sf stack : String) (rest : Entries F) : Option String :=
  match rest.find? (fun e => e.1 == sf || e.1 == stack) with
  | none => none
  | some (k, j) =>
    if k == sf then readFrameId j else readInline j

/-- Fields of `DurationEvent` other than the flattened one -/
def durFields : List String := ["pid", "tid", "ts", "name", "cat", "tts", "args"]

/-- `DurationEvent` (duration.rs:11-40) -/
def readDuration (cast : Int → F) (l : Entries F) : Option (DurEvent F) :=
  match visit durFields [] [] l with
  | none => none
  | some (s, rest) =>
    match required readI32 s "pid", required readI32 s "tid", required (readF64 cast) s "ts",
      optional readStr s "name", optional readCat s "cat", optional (readF64 cast) s "tts",
      optional (readMap cast) s "args" with
    | some pid, some tid, some ts, some name, some cat, some tts, some args =>
      some ⟨pid, tid, ts, name, cat, tts, args, readStack "sf" "stack" rest⟩
    | _, _, _, _, _, _, _ => none

/-- `TraceEvent::X` (ctf/mod.rs:96-112) -/
def readComplete (cast : Int → F) (l : Entries F) : Option (Event F) :=
  match visit ["dur", "tdur"] [] [] l with
  | none => none
  | some (s, rest) =>
    match readDuration cast rest, required (readF64 cast) s "dur", optional (readF64 cast) s "tdur" with
    | some d, some dur, some tdur => some (.x d dur tdur (readStack "esf" "estack" rest))
    | _, _, _ => none

/-- Flattened `MetadataOptions` (metadata.rs:98-110) -/
def readOptions (cast : Int → F) (l : Entries F) : Option (MetaOpts F) :=
  match visit ["cat", "ts", "tts"] [] [] l with
  | none => none
  | some (s, _) =>
    match optional readCat s "cat", optional (readF64 cast) s "ts", optional (readF64 cast) s "tts" with
    | some cat, some ts, some tts => some ⟨cat, ts, tts⟩
    | _, _, _ => none

/-- `NameArgs`, `LabelsArgs`, `SortIndexArgs` (metadata.rs:112-150): one mandatory field and a map of all others -/
def readArgs {α : Type} (cast : Int → F) (field : String) (r : Json F → Option α) : Json F → Option (α × Args F)
  | .obj l =>
    match visit [field] [] [] l with
    | none => none
    | some (s, rest) => (required r s field).map fun x => (x, toMap cast rest)
  | _ => none

/-- A variant of `MetadataEvent` (metadata.rs:14-97) whose mandatory id is `mand`, the other one being `opt` -/
def readMetaWith {α : Type} (cast : Int → F) (mand opt : String) (args : Json F → Option (α × Args F))
    (mk : Int → α → Args F → Option Int → MetaOpts F → MetaEvent F) (l : Entries F) : Option (Event F) :=
  match visit [mand, "args", opt] [] [] l with
  | none => none
  | some (s, rest) =>
    match required readI32 s mand, required args s "args", optional readI32 s opt, readOptions cast rest with
    | some i, some (x, extra), some o, some opts => some (.m (mk i x extra o opts))
    | _, _, _, _ => none

/-- Variants of `MetadataEvent`, in order (metadata.rs:19-96) -/
def kinds : List String := ["process_name", "process_labels", "process_sort_index", "thread_name", "thread_sort_index"]

/-- Tag of a `MetadataEvent`. As it is read from a buffer it may also be the index of a variant (serde). -/
def metaKind : Json F → Option String
  | .str s => some s
  | .num (.nat n) => kinds[n]?
  | _ => none

/-- `MetadataEvent` (metadata.rs:14-97) -/
def readMeta (cast : Int → F) (l : Entries F) : Option (Event F) :=
  match tagged "name" l with
  | none => none
  | some (tag, rest) =>
    match metaKind tag with
    | some "process_name" => readMetaWith cast "pid" "tid" (readArgs cast "name" readStr) .processName rest
    | some "process_labels" =>
      readMetaWith cast "pid" "tid" (readArgs cast "labels" readStr) (fun _ _ _ _ _ => .other "process_labels") rest
    | some "process_sort_index" =>
      readMetaWith cast "pid" "tid" (readArgs cast "sort_order" readI64) (fun _ _ _ _ _ => .other "process_sort_index") rest
    | some "thread_name" => readMetaWith cast "tid" "pid" (readArgs cast "name" readStr) .threadName rest
    | some "thread_sort_index" =>
      readMetaWith cast "tid" "pid" (readArgs cast "sort_order" readI64) (fun _ _ _ _ _ => .other "thread_sort_index") rest
    | _ => none

/-- `TraceEvent` (ctf/mod.rs:82-121). An array is refused too: it would be taken for a tag followed by the content, and
no variant can be read from a sequence. -/
def readEvent (cast : Int → F) : Json F → Option (Event F)
  | .obj l =>
    match tagged "ph" l with
    | none => none
    | some (ph, rest) =>
      match ph with
      | .str "B" => (readDuration cast rest).map .b
      | .str "E" => (readDuration cast rest).map .e
      | .str "X" => readComplete cast rest
      | .str "M" => readMeta cast rest
      | _ => none
  | _ => none

/-- `DisplayTimeUnit` (ctf/mod.rs:143-157): `true` is the default unit. An enum may also be spelled `{"ms": null}`. -/
def readUnit : Json F → Option Bool
  | .str "ms" => some true
  | .str "ns" => some false
  | .obj [("ms", .null)] => some true
  | .obj [("ns", .null)] => some false
  | _ => none

/-- `StackFrame` (stack.rs:58-70), `deny_unknown_fields`; an array gives the fields in order. Only whether it can be read
matters. -/
def readFrame : Json F → Option Unit
  | .obj l =>
    match visit ["category", "name", "parent"] [] [] l with
    | some (s, []) =>
      match required readStr s "category", required readStr s "name", optional readFrameId s "parent" with
      | some _, some _, some _ => some ()
      | _, _, _ => none
    | _ => none
  | .arr [c, n, p] =>
    match readStr c, readStr n, readOpt readFrameId p with
    | some _, some _, some _ => some ()
    | _, _, _ => none
  | _ => none

/-- `Sample` (ctf/mod.rs:159-178), likewise -/
def readSample (cast : Int → F) : Json F → Option Unit
  | .obj l =>
    match visit ["cpu", "tid", "ts", "name", "sf", "weight"] [] [] l with
    | some (s, []) =>
      match optional readI32 s "cpu", required readI32 s "tid", required (readF64 cast) s "ts", required readStr s "name",
        required readFrameId s "sf", required readI64 s "weight" with
      | some _, some _, some _, some _, some _, some _ => some ()
      | _, _, _, _, _, _ => none
    | _ => none
  | .arr [c, t, ts, n, f, w] =>
    match readOpt readI32 c, readI32 t, readF64 cast ts, readStr n, readFrameId f, readI64 w with
    | some _, some _, some _, some _, some _, some _ => some ()
    | _, _, _, _, _, _ => none
  | _ => none

/-- `HashMap<Box<str>, StackFrame>` and `Box<[Sample]>` -/
def readFrames : Json F → Option Unit
  | .obj l => (readAll readFrame (l.map (·.2))).map fun _ => ()
  | _ => none

def readSamples (cast : Int → F) : Json F → Option Unit
  | .arr l => (readAll (readSample cast) l).map fun _ => ()
  | _ => none

/-- Standard fields of `TraceDataObject` (ctf/mod.rs:37-80) -/
def docFields : List String := ["traceEvents", "displayTimeUnit", "systemTraceEvents", "powerTraceAsString", "stackFrames",
  "samples", "controllerTraceDataKey"]

/-- `Box<[TraceEvent]>` -/
def readEvents (cast : Int → F) : Json F → Option (List (Event F))
  | .arr l => readAll (readEvent cast) l
  | _ => none

/-- `displayTimeUnit` has a default. -/
def unitField (s : Entries F) : Option Bool :=
  match s.lookup "displayTimeUnit" with
  | none => some true
  | some j => readUnit j

/-- `TraceDataObject` (ctf/mod.rs:37-80) -/
def readDoc (cast : Int → F) : Json F → Option (Doc F)
  | .obj l =>
    match visit docFields [] [] l with
    | none => none
    | some (s, rest) =>
      match required (readEvents cast) s "traceEvents", unitField s, optional readStr s "systemTraceEvents",
        optional readStr s "powerTraceAsString", optional readFrames s "stackFrames",
        optional (readSamples cast) s "samples", optional readStr s "controllerTraceDataKey" with
      | some evs, some ms, some a, some b, some c, some d, some e =>
        some ⟨evs, ms && a.isNone && b.isNone && c.isNone && d.isNone && e.isNone, toMap cast rest⟩
      | _, _, _, _, _, _, _ => none
  | _ => none

variable [LinearOrder F] [Zero F] [One F] [Add F] [Sub F]

/-- `ClangTrace::from_str` (lib.rs:218-354) on the JSON value of the text; the error of the outer `Option` is
`CtfParseError`. -/
def load (cc : CharClass) (tmin : F) (cast : Int → F) (j : Json F) : Option (Except (TErr F) (ClangTrace F)) :=
  (readDoc cast j).map (fromDoc cc tmin)

end Verif.Trace.Ctf
