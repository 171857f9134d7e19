import Verif.Tree.Model

/-!
# Model of trace loading (`clang-time-trace`)

A document is given here as the value serde produces (`TraceDataObject`); `Trace/Json.lean` models how it comes from a JSON
value, and JSON text is not modelled.  A `HashMap` iterated by the code is an association list in
*some* iteration order; theorems quantify over all orders.  Timestamps live in any linear order
`F` with `0`, `1`, `+`, `-` (negative zero is identified with zero, as `==` on `f64` does).
-/

set_option autoImplicit false

namespace Verif.Trace

/-- `serde_json::Value`.  Numbers are given by their `as_u64` and `as_f64` views (the latter
always succeeds without the `arbitrary_precision` feature); arrays and objects are opaque. -/
inductive JVal (F : Type) where
  | null
  | bool (b : Bool)
  | num (u64 : Option Nat) (f64 : F)
  | str (s : String)
  | arr
  | obj
deriving DecidableEq, Repr

/-- `Value::as_u64`. -/
def JVal.asU64 {F : Type} : JVal F → Option Nat
  | .num u _ => u
  | _ => none

/-- `Value::as_f64`. -/
def JVal.asF64 {F : Type} : JVal F → Option F
  | .num _ f => some f
  | _ => none

/-- JSON object as iterated by the code. -/
abbrev Args (F : Type) := List (String × JVal F)

/-- `DurationEvent` (ctf/events/duration.rs:12-39); the stack trace payload is opaque. -/
structure DurEvent (F : Type) where
  pid : Int
  tid : Int
  ts : F
  name : Option String
  cat : Option (List String)
  tts : Option F
  args : Option (Args F)
  stackTrace : Option String
deriving DecidableEq, Repr

/-- `MetadataOptions` (ctf/events/metadata.rs). -/
structure MetaOpts (F : Type) where
  cat : Option (List String)
  ts : Option F
  tts : Option F
deriving DecidableEq, Repr

/-- `MetadataEvent` (ctf/events/metadata.rs:18-100); the three kinds that loading rejects are
collapsed into `other`. -/
inductive MetaEvent (F : Type) where
  | processName (pid : Int) (name : String) (extra : Args F) (tid : Option Int) (opts : MetaOpts F)
  | threadName (tid : Int) (name : String) (extra : Args F) (pid : Option Int) (opts : MetaOpts F)
  | other (kind : String)
deriving DecidableEq, Repr

/-- `TraceEvent` (ctf/mod.rs:85-121). -/
inductive Event (F : Type) where
  | b (d : DurEvent F)
  | e (d : DurEvent F)
  | x (d : DurEvent F) (dur : F) (tdur : Option F) (endStack : Option String)
  | m (ev : MetaEvent F)
deriving DecidableEq, Repr

/-- `From<Box<str>> for EventCategories` (ctf/mod.rs:197-206), on the comma-separated parts. -/
def categories (parts : List String) : List String := parts.filter (· ≠ "")

/-- `ActivityArgumentType` (stats/activity/argument.rs:210-236). -/
inductive ArgType where
  | nothing | string | filePathOrModule | cppEntity | symbol | symbolOpt | unnamedLoop
  | unnamedLoopOpt
deriving DecidableEq, Repr

/-- `ACTIVITIES` (stats/activity/mod.rs:324-447), generated from the source. -/
def activities : List (String × ArgType) := [
    ("AAManager", .symbol),
    ("ADCEPass", .symbol),
    ("AggressiveInstCombinePass", .symbol),
    ("AlignmentFromAssumptionsPass", .symbol),
    ("Annotation2MetadataPass", .filePathOrModule),
    ("AnnotationRemarksPass", .symbol),
    ("AssignmentTrackingPass", .filePathOrModule),
    ("Backend", .nothing),
    ("BDCEPass", .symbol),
    ("BlockFrequencyAnalysis", .symbol),
    ("BranchProbabilityAnalysis", .symbol),
    ("CalledValuePropagationPass", .filePathOrModule),
    ("CallGraphAnalysis", .filePathOrModule),
    ("CGProfilePass", .filePathOrModule),
    ("CGSCCToFunctionPassAdaptor", .symbolOpt),
    ("CodeGen Function", .cppEntity),
    ("CodeGenPasses", .nothing),
    ("ConstantMergePass", .filePathOrModule),
    ("ConstraintEliminationPass", .symbol),
    ("CoroCleanupPass", .symbol),
    ("CoroEarlyPass", .symbol),
    ("CoroElidePass", .symbol),
    ("CoroSplitPass", .nothing),
    ("CorrelatedValuePropagationPass", .symbol),
    ("DeadArgumentEliminationPass", .filePathOrModule),
    ("DebugConstGlobalVariable", .cppEntity),
    ("DebugFunction", .cppEntity),
    ("DebugGlobalVariable", .cppEntity),
    ("DebugType", .cppEntity),
    ("DevirtSCCRepeatedPass", .symbolOpt),
    ("DivRemPairsPass", .symbol),
    ("DominatorTreeAnalysis", .symbol),
    ("DSEPass", .symbol),
    ("EarlyCSEPass", .symbol),
    ("EliminateAvailableExternallyPass", .filePathOrModule),
    ("ExecuteCompiler", .nothing),
    ("Float2IntPass", .symbol),
    ("ForceFunctionAttrsPass", .filePathOrModule),
    ("Frontend", .nothing),
    ("FunctionToLoopPassAdaptor", .symbol),
    ("GlobalDCEPass", .filePathOrModule),
    ("GlobalOptPass", .filePathOrModule),
    ("GlobalsAA", .filePathOrModule),
    ("GVNPass", .symbol),
    ("IndVarSimplifyPass", .unnamedLoop),
    ("InferFunctionAttrsPass", .filePathOrModule),
    ("InjectTLIMappings", .symbol),
    ("InlinerPass", .symbolOpt),
    ("InnerAnalysisManagerProxy<CGSCCAnalysisManager, Module>", .filePathOrModule),
    ("InstantiateClass", .cppEntity),
    ("InstantiateFunction", .cppEntity),
    ("InstCombinePass", .symbol),
    ("InstSimplifyPass", .symbol),
    ("InvalidateAnalysisPass<llvm::AAManager>", .symbol),
    ("InvalidateAnalysisPass<llvm::ShouldNotRunFunctionPassesAnalysis>", .symbol),
    ("IPSCCPPass", .filePathOrModule),
    ("JumpThreadingPass", .symbol),
    ("LazyCallGraphAnalysis", .filePathOrModule),
    ("LCSSAPass", .symbol),
    ("LibCallsShrinkWrapPass", .symbol),
    ("LICMPass", .unnamedLoopOpt),
    ("LoopAnalysis", .symbol),
    ("LoopDeletionPass", .unnamedLoop),
    ("LoopDistributePass", .symbol),
    ("LoopFullUnrollPass", .unnamedLoop),
    ("LoopIdiomRecognizePass", .unnamedLoop),
    ("LoopInstSimplifyPass", .unnamedLoop),
    ("LoopLoadEliminationPass", .symbol),
    ("LoopRotatePass", .unnamedLoop),
    ("LoopSimplifyCFGPass", .unnamedLoop),
    ("LoopSimplifyPass", .symbol),
    ("LoopSinkPass", .symbol),
    ("LoopUnrollPass", .symbol),
    ("LoopVectorizePass", .symbol),
    ("LowerConstantIntrinsicsPass", .symbol),
    ("LowerExpectIntrinsicPass", .symbol),
    ("MemCpyOptPass", .symbol),
    ("MemorySSAAnalysis", .symbol),
    ("MergedLoadStoreMotionPass", .symbol),
    ("ModuleInlinerWrapperPass", .filePathOrModule),
    ("ModuleToFunctionPassAdaptor", .filePathOrModule),
    ("ModuleToPostOrderCGSCCPassAdaptor", .filePathOrModule),
    ("OpenMPOptCGSCCPass", .nothing),
    ("OpenMPOptPass", .filePathOrModule),
    ("OptFunction", .symbol),
    ("Optimizer", .nothing),
    ("OptModule", .filePathOrModule),
    ("ParseClass", .cppEntity),
    ("ParseTemplate", .cppEntity),
    ("PassManager<llvm::Function>", .symbolOpt),
    ("PassManager<llvm::Loop, llvm::LoopAnalysisManager, llvm::LoopStandardAnalysisResults &, llvm::LPMUpdater &>", .nothing),
    ("PassManager<Function>", .symbolOpt),
    ("PassManager<LazyCallGraph::SCC, CGSCCAnalysisManager, LazyCallGraph &, CGSCCUpdateResult &>", .symbol),
    ("PassManager<Loop, LoopAnalysisManager, LoopStandardAnalysisResults &, LPMUpdater &>", .unnamedLoop),
    ("PerformPendingInstantiations", .nothing),
    ("PerFunctionPasses", .nothing),
    ("PerModulePasses", .nothing),
    ("PostDominatorTreeAnalysis", .symbol),
    ("PostOrderFunctionAttrsPass", .symbolOpt),
    ("PromotePass", .symbol),
    ("ReassociatePass", .symbol),
    ("RecomputeGlobalsAAPass", .filePathOrModule),
    ("RelLookupTableConverterPass", .filePathOrModule),
    ("RequireAnalysisPass<llvm::GlobalsAA, llvm::Module>", .filePathOrModule),
    ("RequireAnalysisPass<llvm::OptimizationRemarkEmitterAnalysis, llvm::Function>", .symbol),
    ("RequireAnalysisPass<llvm::ProfileSummaryAnalysis, llvm::Module>", .filePathOrModule),
    ("RequireAnalysisPass<llvm::GlobalsAA, llvm::Module, llvm::AnalysisManager<Module>>", .filePathOrModule),
    ("ReversePostOrderFunctionAttrsPass", .filePathOrModule),
    ("RunLoopPass", .string),
    ("RunPass", .string),
    ("ScalarEvolutionAnalysis", .symbol),
    ("SCCPPass", .symbol),
    ("SimpleLoopUnswitchPass", .unnamedLoop),
    ("SimplifyCFGPass", .symbol),
    ("SLPVectorizerPass", .symbol),
    ("Source", .filePathOrModule),
    ("SpeculativeExecutionPass", .symbol),
    ("SROAPass", .symbol),
    ("TailCallElimPass", .symbol),
    ("TargetIRAnalysis", .symbol),
    ("VectorCombinePass", .symbol),
    ("WarnMissedTransformationsPass", .symbol)]

/-- `ArgParseError` (stats/mod.rs). -/
inductive ArgErr (F : Type) where
  | unexpectedKeys (rest : Args F)
  | unexpectedValue (key : String) (v : JVal F)
  | missingKey (key : String)
deriving DecidableEq, Repr

/-- `HashMap::remove`. -/
def remove {F : Type} (k : String) (m : Args F) : Args F := m.filter (fun kv => kv.1 ≠ k)

/-- `Activity::parse_empty_args` (stats/activity/mod.rs:221-231). -/
def parseEmptyArgs {F : Type} : Option (Args F) → Except (ArgErr F) Unit
  | none => .ok ()
  | some [] => .ok ()
  | some args => .error (.unexpectedKeys args)

/-- `Activity::parse_detail_arg` (stats/activity/mod.rs:234-271). -/
def parseDetailArg {F : Type} : Option (Args F) → Except (ArgErr F) String
  | none => .error (.missingKey "detail")
  | some [] => .error (.missingKey "detail")
  | some ((k, v) :: rest) =>
    if k = "detail" then
      match v with
      | .str s =>
        match rest with
        | [] => .ok s
        | kv :: rest' => .error (.unexpectedKeys (remove "detail" (kv :: rest')))
      | v => .error (.unexpectedValue "detail" v)
    else .error (.unexpectedKeys (remove "detail" ((k, v) :: rest)))

/-- Unicode character classes used by argument type inference (`char::is_uppercase`,
`char::is_alphanumeric`); theorems hold for any choice. -/
structure CharClass where
  upper : Char → Bool
  alnum : Char → Bool

/-- `str::split(' ')`. -/
def splitSpaces : List Char → List (List Char)
  | [] => [[]]
  | c :: cs =>
    match splitSpaces cs with
    | [] => [[c]]
    | w :: ws => if c = ' ' then [] :: w :: ws else (c :: w) :: ws

/-- Middle characters of a word (argument.rs:301-313). -/
def middleOk (cc : CharClass) : List Char → Bool → Bool → Bool
  | [], _, _ => true
  | m :: ms, dash, caps =>
    (cc.alnum m || m == '-' || (m == '>' && dash) || m == '/' || (m == '_' && caps)) &&
      middleOk cc ms (m == '-') (cc.upper m)

/-- Word check of `infer_from_detail` (argument.rs:286-313). -/
def wordOk (cc : CharClass) (w : List Char) : Bool :=
  if w = ['&'] ∨ w = "memcmp()".toList then true
  else match w with
    | [] => true
    | [c] => cc.alnum c
    | c :: rest =>
      cc.alnum c && (rest.getLast?.map cc.alnum).getD true && middleOk cc rest.dropLast false false

/-- `ActivityArgumentType::infer_from_detail` (argument.rs:239-321); `none` is the `expect` panic
of argument.rs:281. -/
def inferFromDetail (cc : CharClass) (detail : String) : Option ArgType :=
  let d := detail.toList
  let n := if "(".toList.isPrefixOf d ∧ ")".toList.isSuffixOf d then (d.drop 1).dropLast else d
  if "_Z".toList.isPrefixOf n ∨ n = "main".toList ∨ n = "__clang_call_terminate".toList
      ∨ "__cxx_global_var_init".toList.isPrefixOf n ∨ "_GLOBAL__sub_I_".toList.isPrefixOf n then
    some .symbol
  else if d = "<unnamed loop>".toList then some .unnamedLoop
  else if "/".toList.isPrefixOf d ∨ d = "[module]".toList then some .filePathOrModule
  else
    match d with
    | [] => none
    | c :: _ =>
      if !cc.upper c then some .cppEntity
      else if (splitSpaces d).all (wordOk cc) then some .string else some .cppEntity

/-- `Activity` (stats/activity/mod.rs:105-112): `known` tells whether the id comes from the
`ACTIVITIES` table. `ActivityId::name()` gives back `name` in both cases. -/
structure Activity where
  name : String
  known : Bool
  argType : ArgType
  detail : Option String
deriving DecidableEq, Repr

/-- Outcome of parsing one activity. -/
inductive ActRes (F : Type) where
  | ok (a : Activity)
  | badArguments (name : String) (e : ArgErr F)
  | panic
deriving DecidableEq, Repr

/-- `Activity::parse` (stats/activity/mod.rs:145-218); the inferred type of a known activity is
only logged, but computing it may panic. -/
def parseActivity {F : Type} (cc : CharClass) (name : String) (args : Option (Args F)) :
    ActRes F :=
  match activities.lookup name with
  | some t =>
    match t with
    | .nothing =>
      match parseEmptyArgs args with
      | .ok () => .ok ⟨name, true, t, none⟩
      | .error e => .badArguments name e
    | .symbolOpt | .unnamedLoopOpt =>
      match parseDetailArg args with
      | .ok d => .ok ⟨name, true, t, some d⟩
      | .error (.missingKey _) => .ok ⟨name, true, t, none⟩
      | .error e => .badArguments name e
    | _ =>
      match parseDetailArg args with
      | .ok d =>
        match inferFromDetail cc d with
        | none => .panic
        | some _ => .ok ⟨name, true, t, some d⟩
      | .error e => .badArguments name e
  | none =>
    match parseDetailArg args with
    | .ok d =>
      match inferFromDetail cc d with
      | none => .panic
      | some t => .ok ⟨name, false, t, some d⟩
    | .error (.missingKey _) => .ok ⟨name, false, .nothing, none⟩
    | .error e => .badArguments name e

/-- `GlobalStat` (stats/global.rs:18-24). -/
structure GlobalStat (F : Type) where
  total : F
  count : Nat
deriving DecidableEq, Repr

/-- `GlobalStatArgs::parse` (stats/global.rs:121-158); `count` and `avg` are the loop variables. -/
def parseGlobalArgs {F : Type} (count : Option Nat) (avg : Option F) :
    Args F → Except (ArgErr F) (Nat × F)
  | [] =>
    match count, avg with
    | some c, some a => .ok (c, a)
    | none, _ => .error (.missingKey "count")
    | _, none => .error (.missingKey "avg ms")
  | (k, v) :: rest =>
    if k = "count" then
      match v.asU64 with
      | some c => parseGlobalArgs (some c) avg rest
      | none => .error (.unexpectedValue "count" v)
    else if k = "avg ms" then
      match v.asF64 with
      | some f => parseGlobalArgs count (some f) rest
      | none => .error (.unexpectedValue "avg ms" v)
    else .error (.unexpectedKeys (remove "avg ms" (remove "count" ((k, v) :: rest))))

/-- `str::strip_prefix`. -/
def stripPrefix (pre s : String) : Option String :=
  if pre.toList.isPrefixOf s.toList then some (String.ofList (s.toList.drop pre.toList.length))
  else none

/-- `GlobalStatParseError` (stats/global.rs:93-107). -/
inductive GlobalErr (F : Type) where
  | unexpectedInput (ev : Event F)
  | noTotalPrefix (name : String)
  | badArguments (e : ArgErr F)
deriving DecidableEq, Repr

variable {F : Type} [LinearOrder F] [Zero F] [One F] [Add F] [Sub F]

/-- `GlobalStat::parse` (stats/global.rs:37-75). -/
def parseGlobal (ev : Event F) : Except (GlobalErr F) (String × GlobalStat F) :=
  match ev with
  | .x ⟨_, tid, ts, some name, none, none, some args, none⟩ dur none none =>
    if tid ≠ 0 ∧ ts = 0 then
      match stripPrefix "Total " name with
      | none => .error (.noTotalPrefix name)
      | some stripped =>
        match parseGlobalArgs none none args with
        | .error e => .error (.badArguments e)
        | .ok (count, _) => .ok (stripped, ⟨dur, count⟩)
    else .error (.unexpectedInput ev)
  | _ => .error (.unexpectedInput ev)

/-- `ActivityStatParseError` (stats/activity/mod.rs:96-104) and the explicit panic. -/
inductive StatErr (F : Type) where
  | unexpectedInput (ev : Event F)
  | badArguments (name : String) (e : ArgErr F)
  | panic
deriving DecidableEq, Repr

/-- `ActivityStat::parse` (stats/activity/mod.rs:45-72) with `end()` (stats/activity/mod.rs:90-92). -/
def parseStat (cc : CharClass) (ev : Event F) :
    Except (StatErr F) (Tree.Stat F F Activity) :=
  match ev with
  | .x ⟨pid, tid, ts, some name, none, none, args, none⟩ dur none none =>
    if (pid = 1 ∧ tid = 0) ∨ tid = pid then
      match parseActivity cc name args with
      | .ok a => .ok ⟨a, ts, ts + dur, dur⟩
      | .badArguments n e => .error (.badArguments n e)
      | .panic => .error .panic
    else .error (.unexpectedInput ev)
  | _ => .error (.unexpectedInput ev)

/-- `metadata::parse_process_name` (metadata.rs:7-27); `none` is `NameParseError`. -/
def parseProcessName (m : MetaEvent F) : Option String :=
  match m with
  | .processName pid name extra tid ⟨some cat, some ts, none⟩ =>
    if extra.isEmpty ∧ cat.isEmpty ∧ ts = 0 ∧ ((pid = 1 ∧ tid = some 0) ∨ tid = some pid) then
      some name
    else none
  | _ => none

/-- `metadata::parse_thread_name` (metadata.rs:30-45); `none` is `NameParseError`. -/
def parseThreadName (m : MetaEvent F) : Option String :=
  match m with
  | .threadName tid name extra pid ⟨some cat, some ts, none⟩ =>
    if extra.isEmpty ∧ cat.isEmpty ∧ ts = 0 ∧ pid = some tid then some name else none
  | _ => none

/-- `ClangTraceParseError` (lib.rs:371-430), with the explicit panic. -/
inductive TErr (F : Type) where
  | unexpectedTraceMetadata
  | invalidBeginningOfTime (v : JVal F)
  | stat (e : StatErr F)
  | tree (e : Tree.Err F F Activity)
  | globalStat (e : GlobalErr F)
  | duplicateGlobalStat (name : String) (old new : GlobalStat F)
  | duplicateProcessName (old new : String)
  | noProcessName
  | nameParse (m : MetaEvent F)
  | duplicateThreadName (old new : String)
  | inconsistentPid (a b : Int)
  | unexpectedMetadataEvent (m : MetaEvent F)
  | unexpectedEvent (ev : Event F)
  | panic
deriving DecidableEq, Repr

/-- Local variables of the event loop of `ClangTrace::from_str` (lib.rs:255-259). -/
structure St (F : Type) where
  builder : Tree.Builder F F Activity
  globals : List (String × GlobalStat F)
  processName : Option String
  threadName : Option String
  pid : Option Int

/-- `merge_pid` (lib.rs:260-268). -/
def mergePid (cur : Option Int) (p : Int) : Except (TErr F) (Option Int) :=
  match cur with
  | none => .ok (some p)
  | some q => if q = p then .ok (some q) else .error (.inconsistentPid q p)

/-- Thread names may lack a pid (lib.rs:310-312). -/
def mergeOpt (cur : Option Int) : Option Int → Except (TErr F) (Option Int)
  | none => .ok cur
  | some p => mergePid cur p

/-- One iteration of the event loop (lib.rs:270-333). -/
def step (cc : CharClass) (st : St F) (ev : Event F) : Except (TErr F) (St F) :=
  match ev with
  | .x d dur _ _ =>
    match mergePid st.pid d.pid with
    | .error e => .error e
    | .ok pid =>
      if 1 < d.ts then
        match parseStat cc ev with
        | .error .panic => .error .panic
        | .error e => .error (.stat e)
        | .ok s =>
          match Tree.insert st.builder s with
          | .error .panic => .error .panic
          | .error e => .error (.tree e)
          | .ok b => .ok { st with pid := pid, builder := b }
      else
        match parseGlobal ev with
        | .error e => .error (.globalStat e)
        | .ok (name, stat) =>
          match st.globals.lookup name with
          | some old => .error (.duplicateGlobalStat name old stat)
          | none => .ok { st with pid := pid, globals := st.globals ++ [(name, stat)] }
  | .m m =>
    match m with
    | .processName p _ _ _ _ =>
      match mergePid st.pid p with
      | .error e => .error e
      | .ok pid =>
        match parseProcessName m with
        | none => .error (.nameParse m)
        | some n =>
          match st.processName with
          | some old => .error (.duplicateProcessName old n)
          | none => .ok { st with pid := pid, processName := some n }
    | .threadName _ _ _ p _ =>
      match mergeOpt st.pid p with
      | .error e => .error e
      | .ok pid =>
        match parseThreadName m with
        | none => .error (.nameParse m)
        | some n =>
          match st.threadName with
          | some old => .error (.duplicateThreadName old n)
          | none => .ok { st with pid := pid, threadName := some n }
    | .other _ => .error (.unexpectedMetadataEvent m)
  | ev => .error (.unexpectedEvent ev)

/-- The event loop (lib.rs:270-333). -/
def run (cc : CharClass) (st : St F) : List (Event F) → Except (TErr F) (St F)
  | [] => .ok st
  | ev :: evs =>
    match step cc st ev with
    | .error e => .error e
    | .ok st' => run cc st' evs

/-- `TraceDataObject` (ctf/mod.rs:41-80): `standardDefault` tells whether all the standardized
fields other than `traceEvents` have their default value (the comparison at lib.rs:227-236). -/
structure Doc (F : Type) where
  events : List (Event F)
  standardDefault : Bool
  extra : Args F

/-- `ClangTrace` (lib.rs:51-79) without the entity parser. -/
structure ClangTrace (F : Type) where
  tree : Tree.ATree F F Activity
  globals : List (String × GlobalStat F)
  processName : String
  threadName : Option String
  pid : Option Int
  beginningOfTime : Option F

/-- State before the event loop. -/
def init (tmin : F) : St F := ⟨Tree.empty tmin, [], none, none, none⟩

/-- Lookup of `beginningOfTime` (lib.rs:241-251). -/
def beginningOfTime (extra : Args F) : Except (TErr F) (Option F) :=
  match extra.lookup "beginningOfTime" with
  | none => .ok none
  | some v =>
    match v.asF64 with
    | some f => .ok (some f)
    | none => .error (.invalidBeginningOfTime v)

/-- `ClangTrace::from_str` (lib.rs:221-354) after JSON parsing.  `traceEvents.len() - 1`
(lib.rs:255) underflows on an empty list: a panic in debug builds, and in release builds a
capacity of `usize::MAX` on which `Vec::with_capacity` panics. -/
def fromDoc (cc : CharClass) (tmin : F) (doc : Doc F) : Except (TErr F) (ClangTrace F) :=
  if !doc.standardDefault then .error .unexpectedTraceMetadata
  else
    match beginningOfTime doc.extra with
    | .error e => .error e
    | .ok bot =>
      if doc.events.length = 0 then .error .panic
      else
        match run cc (init tmin) doc.events with
        | .error e => .error e
        | .ok st =>
          match st.processName with
          | none => .error .noProcessName
          | some name =>
            match Tree.build st.builder with
            | .error _ => .error .panic
            | .ok t => .ok ⟨t, st.globals, name, st.threadName,
                st.pid.filter (fun p => decide (p > 1)), bot⟩

end Verif.Trace
