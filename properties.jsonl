{"id": "C01", "title": "Activities form a forest", "statement": "After a trace is loaded, every activity of all_activities() is listed exactly once overall by root_activities() and the direct_children() of all activities together: each activity is a root or the direct child of exactly one other activity, never both, never twice, never none.", "quantifier": "every sequence of activities the loader accepts, of any length and nesting", "why_tests_cant": "the number of event sequences is infinite and index bookkeeping (first_related_idx, children ranges) can break only on particular nesting shapes", "anchors": ["clang-time-trace/src/tree.rs: ActivityTreeBuilder::insert, ActivityTreeBuilder::build, ActivityTree::root_activities, ActivityTrace::direct_children"]}
{"id": "C02", "title": "all_children() is exactly the set of descendants", "statement": "For every activity, all_children() yields exactly the activities reachable through one or more direct_children() steps, and parent() is the inverse of direct_children(): parent(c) = a iff c is listed in direct_children(a); roots have no parent.", "quantifier": "every accepted event sequence and every pair of activities", "why_tests_cant": "contiguous-index encodings of subtrees and the NonZero parent index are correct only thanks to a global invariant", "anchors": ["clang-time-trace/src/tree.rs: ActivityTrace::all_children, ActivityTrace::direct_children, ActivityTrace::parent"]}
{"id": "C03", "title": "Children nest in their parent's time span and siblings do not overlap", "statement": "A direct child's [start,end] lies inside its parent's, and two siblings (or two roots) never overlap: the later-listed one ends no later than the earlier-listed one starts.", "quantifier": "every accepted event sequence; any totally ordered time type, so any non-NaN float", "why_tests_cant": "needs to hold for all interleavings of start/end/duration values including zero-length and equal timestamps", "anchors": ["clang-time-trace/src/tree.rs: ActivityTreeBuilder::insert"]}
{"id": "C04", "title": "A trace is rejected iff its activities are out of order or partially overlap", "statement": "Inserting activities succeeds iff end times never decrease and no earlier activity that starts strictly before a later one also ends strictly after that one starts; the first offending activity determines the reported error (order error first).", "quantifier": "every finite sequence of activities", "why_tests_cant": "acceptance is a global property of the whole prefix; the scan only looks at a subset of earlier activities (candidate skipping)", "anchors": ["clang-time-trace/src/tree.rs: ActivityTreeBuilder::insert, ActivityTreeError"]}
{"id": "C05", "title": "Self-durations add up", "statement": "An activity's self_duration is its duration minus the durations of its direct children; the self_durations of an activity and of all its descendants sum to its duration; root durations sum to the total of all self_durations; self_duration is never negative. With f64 arithmetic all this holds without rounding errors for traces in whole microseconds up to 2^53: the tree is the one exact arithmetic gives.", "quantifier": "every accepted event sequence with exact (integer) times whose duration is end minus start and non-negative", "why_tests_cant": "summation identities over arbitrary trees", "anchors": ["clang-time-trace/src/tree.rs: ActivityTreeBuilder::insert, ActivityTrace::self_duration"]}
{"id": "C06", "title": "Building the tree never panics", "statement": "For every accepted event sequence, all index computations of insert and build are in range, the final assertion that every activity has been listed as a child or root holds, and no parent link is lost because the parent has index zero.", "quantifier": "every accepted event sequence", "why_tests_cant": "panic freedom over all inputs", "anchors": ["clang-time-trace/src/tree.rs: ActivityTreeBuilder::insert, ActivityTreeBuilder::build"]}
{"id": "C07", "title": "Loading keeps every event exactly once, in order", "statement": "On success, all_activities() lists exactly the complete ('X') events with timestamp above 1 microsecond, in file order and with their own start, duration and end; every other complete event is a global statistic retrievable under its name and nothing else is in that table.", "quantifier": "every list of trace events", "why_tests_cant": "arbitrary interleavings of event kinds", "anchors": ["clang-time-trace/src/lib.rs: ClangTrace::from_str, all_activities, global_stat"]}
{"id": "C08", "title": "One process per trace", "statement": "Loading succeeds only if all process ids seen in activities, statistics, the process name event and thread name events that carry one are equal; otherwise an inconsistent-pid error reports the two ids; the reported pid is filtered out when it is the placeholder 1.", "quantifier": "every list of trace events", "why_tests_cant": "the check is stateful over the whole history", "anchors": ["clang-time-trace/src/lib.rs: ClangTrace::from_str (merge_pid)"]}
{"id": "C09", "title": "Exactly one process name, no duplicates", "statement": "Loading succeeds only if exactly one process_name metadata event is present, at most one thread_name event exists and no statistic name occurs twice; process_name() and thread name are the announced ones; a second process name is reported as a duplicate naming both.", "quantifier": "every list of trace events", "why_tests_cant": "stateful over whole history", "anchors": ["clang-time-trace/src/lib.rs: ClangTrace::from_str"]}
{"id": "C10", "title": "from_str panics on exactly two kinds of documents", "statement": "from_str returns Ok or Err for every document, with exactly two exceptions on which it panics: a document with an acceptable header and an empty traceEvents list, and one where an acceptable beginning is followed by an activity (of a kind whose detail is inspected) with an empty detail string. (A user would expect no exception at all: both are defects of the code.)", "quantifier": "every trace document", "why_tests_cant": "absence of panics for all inputs", "anchors": ["clang-time-trace/src/lib.rs: ClangTrace::from_str", "clang-time-trace/src/stats/activity/argument.rs: RawActivityArgument::infer_from_detail"]}
{"id": "C11", "title": "Detail arguments are accepted strictly and independently of key order", "statement": "An activity's args yield a detail string iff the args object consists of exactly one key 'detail' with a string value; the verdict (accept/reject) does not depend on the iteration order of the hash map; known activities of each kind are accepted exactly when their args have the shape the kind requires.", "quantifier": "every args object and every map iteration order", "why_tests_cant": "hash map iteration order is nondeterministic", "anchors": ["clang-time-trace/src/stats/activity/mod.rs: parse_detail_arg, parse_empty_args, Activity::parse"]}
{"id": "C12", "title": "Global statistics are parsed strictly and independently of key order", "statement": "A statistic is accepted iff its name starts with 'Total ', its timestamp is zero, its thread id nonzero, no unexpected field is present and its args are exactly {count: u64, 'avg ms': number}; the result does not depend on map order; errors name the offending keys.", "quantifier": "every complete event and every map iteration order", "why_tests_cant": "hash map iteration order is nondeterministic", "anchors": ["clang-time-trace/src/stats/global.rs: GlobalStat::parse, GlobalStatArgs::parse"]}
{"id": "C13", "title": "Metadata events are parsed strictly", "statement": "process_name / thread_name events are accepted iff category, timestamp, pid/tid and args all have the documented shape; the accepted name is the args' name.", "quantifier": "every metadata event", "why_tests_cant": "all inputs", "anchors": ["clang-time-trace/src/metadata.rs: parse_process_name, parse_thread_name, NameArgs::parse"]}
{"id": "C14", "title": "Interned values: keys are equal iff values are equal", "statement": "For any history of intern() calls, get(intern(x)) == x, two keys are equal iff the interned values are equal, keys handed out earlier keep resolving to the same value after any later interning or finalize(), and len() is the number of distinct values.", "quantifier": "every history of intern calls", "why_tests_cant": "must hold after every history", "anchors": ["asylum/src/lib.rs: Interner::intern, Interner::get, Interner::len, Interner::finalize"]}
{"id": "C15", "title": "Sequence keys never alias", "statement": "Packing an (offset, length) range into a bounded integer key either reports key space exhaustion or yields a key that unpacks to exactly the same range; distinct ranges get distinct keys; exhaustion is reported exactly when length or offset does not fit.", "quantifier": "every offset, every length, every LEN_BITS split and every inner key width", "why_tests_cant": "boundary arithmetic on all word values", "anchors": ["asylum/src/sequence.rs: SequenceKey::try_from_impl_key, SequenceKey::into_impl_key"]}
{"id": "C16", "title": "Interned sequences: keys are equal iff sequences are equal", "statement": "For any history of interning sequences directly or through entries (push/pop/intern or abandon), get(key) returns exactly the interned sequence for ever, two keys are equal iff the sequences are equal, abandoned entries leave no trace and num_items/len/max_sequence_len report what was interned.", "quantifier": "every history of intern / entry / push / pop / abandon calls", "why_tests_cant": "must hold after every history", "anchors": ["asylum/src/sequence.rs: SequenceInterner, SequenceEntry"]}
{"id": "C17", "title": "An open sequence entry behaves as a private stack", "statement": "push/pop/len on an open entry behave as on an initially empty stack, popping an empty entry yields nothing, and never exposes or destroys items of previously interned sequences.", "quantifier": "every sequence of push/pop operations on every interner state", "why_tests_cant": "all histories", "anchors": ["asylum/src/sequence.rs: SequenceEntry::push, SequenceEntry::pop, SequenceEntry::len, Drop"]}
{"id": "C18", "title": "Path keys are equal iff normalized paths are equal", "statement": "Interning an absolute path drops '.', resolves '..' lexically and never above the root; two keys are equal iff the normalized component lists are equal; normalization is idempotent; relative paths are rejected without modifying the interner. The usage statistics of the interner after any history are: the number of distinct normalized paths, the sum and the maximum of their lengths (root included), and, if no key space is exhausted, the number of distinct names (root included) occurring in the absolute paths submitted, even if a later '..' removes them.", "quantifier": "every path string and every history of interned paths", "why_tests_cant": "all paths and histories", "anchors": ["asylum/src/path.rs: PathInterner::intern, len, num_components, num_unique_components, max_path_len, InternedPath::components"]}
{"id": "C19", "title": "Nested open sequences do not interfere", "statement": "While recursively parsing, any number of entries of the same interner may be open and interleaved; every entry interns exactly the items pushed to it, and buffer reuse never leaks items between entries.", "quantifier": "every interleaving of open/push/intern/drop over any number of entries", "why_tests_cant": "all interleavings", "anchors": ["cpparser/src/interning/recursion.rs: RecursiveSequenceInterner::entry, SequenceEntry::push, SequenceEntry::intern, Drop"]}
{"id": "C20", "title": "Stopping one worker stops exactly that worker", "statement": "After any sequence of stop() calls on distinct workers, a worker sees its stop flag iff it has been stopped, the number of active workers is exact, stopping a worker again is detected and stop_all stops everyone. Enumerating the active workers lists exactly those, in increasing order, unless the last worker of a full 64-worker word is the only active one of its word; in exactly that case the enumeration fails with an overflowing shift (a defect of the code).", "quantifier": "every number of workers and every order of stops", "why_tests_cant": "bit manipulation over all worker counts and histories", "anchors": ["cmakeperf/src/measure/main.rs: StopServer::stop, num_active, enumerate_active, word_and_mask", "cmakeperf/src/measure/mod.rs: StopFlags::new", "cmakeperf/src/measure/worker.rs: StopClient::must_stop"]}
{"id": "C21", "title": "The work futex never aliases and never lies", "statement": "Each push changes the futex word, and the word is the FINISHED marker iff the queue has been closed, including after wrap-around of the 32-bit counter; it never goes back to the INITIAL value.", "quantifier": "every number of pushes, including more than 2^32", "why_tests_cant": "wrap-around needs 2^32 pushes", "anchors": ["cmakeperf/src/measure/main.rs: WorkSender::push, WorkSender::close, update_futex"]}
{"id": "C22", "title": "No lost wake-up", "statement": "In every interleaving of pushes, closes, thefts, futex waits and wakes: while a job is queued, some worker that is neither asleep nor finished will look at the queue before sleeping, or the main thread is about to signal the workers; as long as the measurement has not ended, the main thread or some worker can go on (no deadlock); once the queue is closed no worker stays asleep.", "quantifier": "every schedule of any number of workers and any number of jobs", "why_tests_cant": "all schedules", "anchors": ["cmakeperf/src/measure/worker.rs: WorkReceiver::next, WorkReceiver::wait", "cmakeperf/src/measure/main.rs: WorkSender"]}
{"id": "C23", "title": "Jobs are conserved", "statement": "At every point of every execution each compilation unit is in exactly one place: queued, held by one worker, in flight in the results channel, or recorded in the output. Killed jobs are re-queued, not lost and not duplicated.", "quantifier": "every schedule, any number of workers and jobs, any pattern of kills", "why_tests_cant": "all schedules", "anchors": ["cmakeperf/src/measure/main.rs: run", "cmakeperf/src/measure/worker.rs: run, process_job"]}
{"id": "C24", "title": "A successful measurement covers every unit exactly once", "statement": "When measurement ends with Ok, the CSV contains exactly one row for every compilation database entry and the progress callback ran exactly once per entry.", "quantifier": "every schedule, any number of workers and jobs, any pattern of out-of-memory kills", "why_tests_cant": "all schedules", "anchors": ["cmakeperf/src/measure/main.rs: run"]}
{"id": "C25", "title": "Out-of-memory handling stops the youngest workers, one at a time, only as needed", "statement": "While free memory is below the margin, the monitor stops active workers starting with the one whose job started last, lowers the margin proportionally, never stops a worker twice, terminates, and reports that everyone was killed exactly when no worker is left. It fails only through the enumeration defect of C20: when memory is still short and the last worker of a full 64-worker word is the only active one of its word; never with fewer than 64 workers.", "quantifier": "every memory reading, worker set and elapsed-time vector", "why_tests_cant": "loops with shrinking state over all inputs", "anchors": ["cmakeperf/src/measure/main.rs: MonitorServer::handle_oom_and_termination, update_oom_threshold"]}
{"id": "C26", "title": "Process tree tracking finds exactly the descendants", "statement": "A refresh returns the root process and exactly its transitive children present in the process table, each once, parents before children, and sums their memory.", "quantifier": "every process table in which the root process is not its own descendant (otherwise the refresh never ends, which is proved too)", "why_tests_cant": "all process tables", "anchors": ["cmakeperf/src/measure/worker.rs: ProcessTree::refresh, ProcessTree::memory_usage, ProcessTree::kill"]}
{"id": "C27", "title": "Compilation database lookups", "statement": "After loading entries, entry(path) returns the last entry with that input file (paths compared component by component) and nothing iff there is none; entries() has one entry per distinct input path. push() fails iff the path is already there and changes no other lookup; clear() empties the database.", "quantifier": "every list of entries including duplicates", "why_tests_cant": "all inputs", "anchors": ["cmakeperf/src/commands.rs: CompilationDatabase::from_entries, push, entry, entries, clear"]}
{"id": "C28", "title": "Freshness verdicts", "statement": "A product is Nonexistent iff its file is not found; Outdated only if it is older than the database or than some input; if none is newer and all stats succeed it is MaybeOutdated with its age; I/O errors are reported, never mistaken for freshness.", "quantifier": "every assignment of modification times and I/O errors and every iteration order of inputs", "why_tests_cant": "all filesystem states and orders", "anchors": ["cmakeperf/src/commands.rs: CompilationDatabase::product_freshness, DatabaseEntry::derived_freshness"]}
{"id": "C29", "title": "Output file determination", "statement": "DatabaseEntry::output returns the explicit output if present, otherwise the argument following the first -o, resolved against the entry's directory, and None if there is none.", "quantifier": "every command line", "why_tests_cant": "all argument lists", "anchors": ["cmakeperf/src/commands.rs: DatabaseEntry::output"]}
{"id": "C30", "title": "Wall-clock times read back are valid or reported raw", "statement": "wall_time() is None iff the column is absent; NaN, infinities, negative values and values above 2^64 s are reported as the raw value; every other value converts, without panic, to a duration within 33 ns of it (exact for whole seconds). Times written by the measurement always read back as valid durations.", "quantifier": "every f32 value", "why_tests_cant": "all values", "anchors": ["cmakeperf/src/output.rs: UnitProfile::wall_time, UnitProfile::new"]}
{"id": "C31", "title": "Strings are truncated to the available width", "statement": "display_string in single-line mode writes at most max_cols columns for every max_cols >= 1; text that fits is written unchanged; truncated text is a prefix, an ellipsis and a suffix of the original that do not overlap.", "quantifier": "every string (any grapheme widths) and every max_cols", "why_tests_cant": "all strings and widths", "anchors": ["src/ui/display/mod.rs: display_string"]}
{"id": "C32", "title": "Truncated paths fit the available width", "statement": "A path of at least two components displayed under a column limit occupies at most that many columns, keeps component order, and shows an ellipsis wherever components (or the middle of the file name) were dropped; it is unchanged when it fits with a column to spare, and also when it fits exactly unless it is a file directly under the root.", "quantifier": "every list of two or more path components and every column count from 1", "why_tests_cant": "all paths and widths", "anchors": ["src/ui/display/path.rs: truncate_path_iter, select_components, display_components, display_filename"]}
{"id": "C33", "title": "Durations are displayed with the right unit and without rounding overflow", "statement": "display_duration picks days/hours/minutes/seconds/milliseconds/microseconds by magnitude, carries rounding into the next unit (never prints 60.00s, 60m or 24h) and the printed value is within half a unit in the last place of the true duration. In the f64 arithmetic of the program this holds for every duration below 2^66 microseconds, up to the rounding of one division (2^-34 microseconds for milliseconds, 2^-28 for seconds). It does not hold for all larger durations: 58885218600911995142144 microseconds are displayed with -1 hours. A negative duration is displayed as it is, in microseconds.", "quantifier": "every non-negative f64 duration below 2^66 microseconds (about two million years); every negative duration", "why_tests_cant": "all values", "anchors": ["src/ui/display/duration.rs: display_duration"]}
{"id": "C34", "title": "Trace metadata fits the terminal", "statement": "Every line of the trace metadata text is at most max_cols wide, and when the parts fit on lines of their own no part is lost.", "quantifier": "every process name, thread name set and width", "why_tests_cant": "all names and widths", "anchors": ["src/ui/display/metadata.rs: metadata"]}
{"id": "C35", "title": "One-line activity descriptions fit", "statement": "A single-line activity description is an explicit not-enough-columns error exactly when the activity name (plus three columns for '(…)' if it has an argument) is wider than the budget; otherwise it is Name or Name(argument) and at most max_cols columns wide. It never panics (for arguments other than the root directory).", "quantifier": "every activity name, argument and 16-bit width", "why_tests_cant": "all inputs", "anchors": ["src/ui/display/activity.rs: display_activity_desc"]}
{"id": "C36", "title": "bounded_display fits and shows as much as possible", "statement": "bounded_display(n) is at most n columns wide for every n >= 1; it is the display at the largest recursion limit up to the advertised depth such that all smaller limits fit too, or '…' if not even limit zero fits; it is the display at the advertised depth whenever every partial display fits.", "quantifier": "every displayable entity and every width", "why_tests_cant": "all entities", "anchors": ["cpparser/src/display.rs: CustomDisplay::bounded_display"]}
{"id": "C37", "title": "Advertised recursion depth is sufficient", "statement": "For every entity in which no name is rooted without having scopes (like ::x) and no signature is variadic without having parameters (like f(...)), displaying it with any recursion limit from recursion_depth() on gives the same text as displaying it without limit. (The unrestricted claim is false for the two excluded forms.)", "quantifier": "every C++ entity without those two forms, every pair of limits", "why_tests_cant": "all entities", "anchors": ["cpparser/src/display.rs: CustomDisplay::recursion_depth", "cpparser/src/interning/slice.rs: SliceView", "cpparser/src/subparsers: all CustomDisplay impls"]}
{"id": "C38", "title": "Displaying leaves the display state unchanged", "statement": "After any display call the remaining recursion budget is what it was before, and during the call it never goes below zero or above the initial value.", "quantifier": "every entity and every initial budget", "why_tests_cant": "all entities", "anchors": ["cpparser/src/display.rs: DisplayState::recurse, RecursionGuard"]}
{"id": "C39", "title": "Hottest activities", "statement": "hottest_activities(threshold) never panics (even if the metric is NaN for some activities) and returns exactly the activities whose metric is at least the threshold, each as often as given, in decreasing order.", "quantifier": "every trace, metric and threshold", "why_tests_cant": "all inputs", "anchors": ["src/trace.rs: hottest_activities"]}
{"id": "C40", "title": "Activity type breakdown", "statement": "Unless a total is NaN, the breakdown does not panic and lists each activity type once with the self durations of its activities accumulated in trace order, by decreasing duration; in exact arithmetic the listed durations sum to the sum of the root durations. In f64 arithmetic this is free of rounding errors for traces in whole microseconds that end before 2^53 microseconds: every type has the exact sum, and the float total that percentages are relative to is exact.", "quantifier": "every trace", "why_tests_cant": "all inputs", "anchors": ["src/trace.rs: activity_type_breakdown"]}
{"id": "C41", "title": "Description caching is transparent", "statement": "Whatever requests preceded it (other traces, other widths, repeated queries), each reply of the processing thread equals what a computation from scratch on the trace the client asked for last would give; replies come back on the channel the client listens to, one at a time; a waiting client is never stuck; describing activities of a loaded trace does not panic (interner key space permitting).", "quantifier": "every history of requests", "why_tests_cant": "all histories", "anchors": ["src/ui/tui/processing.rs: worker, describe_activities, describe_activity"]}
{"id": "C42", "title": "The profile stack stays in sync with the screen, and no UI action panics", "statement": "In every history of user actions, loads, measurements and background messages in which the user does not act between the end of a measurement and the start of the load of its result: the registered profiles are displayed by consecutive screen layers starting at layers_below_profile, each by the table that bears its number; no other layer is a profile; only the topmost profile may be flat; and if loaded traces have activities and non-zero reference durations, no action panics. The scheduling condition cannot be dropped: there is a history where a user action in that window makes the unit shortcut panic; and a trace without activities panics when loaded.", "quantifier": "every finite history of user actions, load completions and measurement callbacks, every answer of the processing thread", "why_tests_cant": "all histories and interleavings of background callbacks with user actions", "anchors": ["src/ui/tui/init.rs: exit_current_layer, backtrace_dialog", "src/ui/tui/trace/display.rs: show_profile, register_profile, switch_duration_unit, sort_other_profiles", "src/ui/tui/trace/load.rs: show_loader", "src/ui/tui/trace/measure.rs: start_measure"]}
{"id": "C43", "title": "An aborted or failed trace measurement restores the previous trace", "statement": "If clang fails, cannot start or is aborted, the output file is what it was before; on success the new output is kept and the backup removed. (Violated when a stale .bak file exists and no output exists.)", "quantifier": "every initial filesystem state, outcome and partial output", "why_tests_cant": "crash/failure points", "anchors": ["src/ui/tui/trace/measure.rs: TraceBackup"]}
{"id": "C44", "title": "An aborted or failed build profile measurement restores the previous profile", "statement": "Unless measurement succeeds the profile file is what it was before, provided (a) no stale backup lies around when no profile exists, (b) the profile is not itself named something.bak, (c) the user does not abort before the measurement thread created its output file. In these three cases the property is violated, and in (b) and (c) the old profile is destroyed.", "quantifier": "every initial filesystem state, outcome and partial output", "why_tests_cant": "crash/failure points", "anchors": ["src/ui/tui/build/measure.rs: MeasureHandle::start, restore_or_delete, Drop"]}
{"id": "C45", "title": "Existing profiles are never overwritten silently", "statement": "A measurement is started only if the user answered so; with default answers an existing profile is always reused; when the profile does not exist and the user declines, nothing is displayed.", "quantifier": "every freshness verdict and answer", "why_tests_cant": "all combinations and all ages", "anchors": ["src/ui/tui/create.rs: CreatePrompt::from_freshness", "src/ui/tui/build/mod.rs: update_profile", "src/ui/tui/trace/measure.rs: show_wizard"]}
{"id": "C46", "title": "C-style type names are order-insensitive", "statement": "The type denoted by a sequence of C type keywords depends only on the multiset of keywords; sequences denoting no C type are rejected; the internal unreachable case is unreachable; display of a legacy type parses back to it.", "quantifier": "every keyword sequence", "why_tests_cant": "all permutations and lengths", "anchors": ["cpparser/src/subparsers/types/specifiers/legacy.rs: legacy_name_parser, LegacyNameBuilder::build"]}
{"id": "C47", "title": "Expression operators parse exactly what they consume, and panic only on doubled operators", "statement": "The binary operator parser panics exactly on inputs that start with one of the doubled operators ** ^^ %% // ~~ !! ,, not followed by = (a defect of the code); on every other input it returns a parse or an error. When it succeeds it yields the operator whose text was consumed, and never the bare , > or >> operators that the context forbids; every allowed operator not followed by another operator character is accepted.", "quantifier": "every input string and both flags", "why_tests_cant": "all inputs", "anchors": ["cpparser/src/subparsers/operators/usage.rs: parse_binary_expr_middle", "cpparser/src/subparsers/operators/mod.rs: arithmetic_or_comparison"]}
{"id": "C48", "title": "Qualifiers round-trip", "statement": "cv and reference qualifiers parse to exactly the set of qualifiers present irrespective of order and repetition, and their display parses back.", "quantifier": "every sequence of qualifier keywords and whitespace", "why_tests_cant": "all sequences", "anchors": ["cpparser/src/subparsers/types/qualifiers.rs: parse_cv, parse_reference"]}
{"id": "C49", "title": "Entity parsing terminates, makes progress and reads the whole text", "statement": "Every parsing function of EntityParser ends on every input, and when it succeeds the remainder it returns is a suffix of its input, a strict one except for declarators and nested name specifiers, which may be empty. parse_entity succeeds only when it consumed the whole text, either as the literal <unknown> or as one type. The result of the mutually recursive parsing functions is determined by their recursive equations: these have exactly one solution.", "quantifier": "every input string, every parsing function, unbounded nesting", "why_tests_cant": "Left recursion or a loop around a parser that can succeed without consuming shows only on the inputs that reach it; the set of inputs and nestings is infinite.", "anchors": ["cpparser/src/subparsers: all parse_* functions", "cpparser/src/lib.rs: EntityParser::parse_entity"]}
{"id": "C50", "title": "When entity parsing panics", "statement": "One would expect parse_entity to return Ok or Err for every input. This is false, and the claim is: parse_entity does not panic on texts of fewer than 768 characters and at most 62 operator characters where every location introduced by \" at \" is an absolute path and no operator character ^ % / * ~ ! or comma is doubled unless = follows; it does panic on every lambda located at a relative path whatever follows it, on every lambda located at an absolute path of 255 or more names, on doubled binary operators in template arguments, on calls with 64 arguments and on values with 64 postfix parts.", "quantifier": "every input string meeting the stated conditions; every relative path and every continuation for the panics", "why_tests_cant": "All inputs: a panic hides behind any of the 40 or so interning calls of the grammar, reached at any nesting depth.", "anchors": ["cpparser/src/lib.rs: EntityParser::parse_entity, intern_path_imut"]}
{"id": "C51", "title": "Resolving an accepted activity's argument never panics", "statement": "For every activity accepted by the loader, RawActivityArgument::parse yields exactly the value its kind and detail call for (text, absolute path, module marker, parsed entity, loop marker, or symbol without its enclosing parentheses: parsed, demangled or verbatim), or a clean error; the detail it needs is always present; it panics only on a file path that is not absolute or where the entity parser itself panics. (The relative path panic is a defect of the code.)", "quantifier": "all activity names, args objects, and behaviours of the C++ parser and demangler", "why_tests_cant": "Clang versions keep adding detail formats; tests only contain the observed ones.", "anchors": ["clang-time-trace/src/stats/activity/argument.rs: RawActivityArgument::parse_impl, parse_symbol", "cpparser/src/lib.rs: EntityParser::intern_path"]}
{"id": "C52", "title": "One-component relative paths gain a leading slash", "statement": "A relative path made of a single component (a source file at the top of the project) that is narrower than the available width is displayed with a spurious leading slash instead of unchanged, and one that fits exactly trips the width assertion (a defect of the code: users would expect the name itself).", "quantifier": "every file name and column count", "why_tests_cant": "all names and widths; the project's tests only use absolute paths", "anchors": ["src/ui/display/path.rs: truncate_path_iter, select_components, display_components", "src/ui/tui/build/display.rs: ProfileColumn::RelPath"]}
{"id": "C53", "title": "One level above the advertised recursion depth always suffices", "statement": "For every entity whatsoever, displaying it with any recursion limit from recursion_depth()+1 on gives the text displayed without limit; recursion_depth() itself does not always suffice.", "quantifier": "every C++ entity, every pair of limits", "why_tests_cant": "all entities of unbounded nesting", "anchors": ["cpparser/src/display.rs: CustomDisplay::recursion_depth, DisplayState", "cpparser/src/subparsers/names/scopes.rs: NestedNameSpecifierView::display_impl", "cpparser/src/subparsers/functions.rs: FunctionSignatureView::display_impl"]}
{"id": "C54", "title": "The printed type profile is complete above the threshold", "statement": "The non-interactive profile by activity type prints exactly the types whose share is at least the threshold, in decreasing order, and then the number of types left out unless it is zero.", "quantifier": "every breakdown, norm and threshold", "why_tests_cant": "all traces and thresholds", "anchors": ["src/ui/stdio.rs: print_activity_type_profile"]}
{"id": "C55", "title": "Printed activities fit in the columns", "statement": "display_activity never panics with at least one column and never exceeds the column budget: it prints description and numbers if both fit, else the description alone, else an ellipsis; the flat profile prints one such line per hot activity and the number of the others.", "quantifier": "every named activity, argument, trailer and budget of 1 to 65535 columns", "why_tests_cant": "all names, arguments and widths", "anchors": ["src/ui/stdio.rs: display_activity, print_flat_profile"]}
{"id": "C56", "title": "The hierarchical report shows exactly the hot call tree", "statement": "The hierarchical report terminates without panicking, shows at depth k exactly the activities reached from the root through k hot direct children as long as columns are left, in decreasing order with the number of cold siblings, and no line exceeds the columns left by the indentation.", "quantifier": "every loaded trace, root, metric, threshold and width of 1 to 65535 columns", "why_tests_cant": "all traces, of unbounded depth, and all widths", "anchors": ["src/ui/stdio.rs: hierarchical_profile_tree, print_hierarchical_profile"]}
{"id": "C57", "title": "The staleness prompt states the profile's age in its largest unit", "statement": "When asking whether to reuse a profile, the question states the number of whole days, else whole hours, else whole minutes of its age, never zero. (A profile stamped in the future is announced as 12810238940076077 days old.)", "quantifier": "every profile age", "why_tests_cant": "the age ranges over all durations and three units with truncating divisions", "anchors": ["src/ui/tui/create.rs: CreatePrompt::maybe_stale_build_profile, CreatePrompt::from_freshness"]}
{"id": "C58", "title": "Exact criterion for a document to load", "statement": "ClangTrace::from_str succeeds exactly when the top-level fields other than traceEvents and beginningOfTime have their defaults, beginningOfTime (if any) is a number, every event is an activity, statistic, process_name or thread_name event of the documented shape, all pids agree, at most one thread name, exactly one process name and no repeated statistic are present, and activity spans end in non-decreasing order without partial overlap; the reported beginning of time is the announced one.", "quantifier": "every document (as deserialized), every hash map order, every linear order of timestamps with a least element", "why_tests_cant": "the acceptance set is infinite and the conditions interact across arbitrarily distant events", "anchors": ["clang-time-trace/src/lib.rs: ClangTrace::from_str", "clang-time-trace/src/tree.rs: ActivityTreeBuilder::insert"]}
{"id": "C59", "title": "All profiles on screen use the current duration unit, with their own norm", "statement": "Whenever a trace is displayed there is a current unit, and every profile on the screen (also those hidden by others) shows durations in it: absolute, percentage of the whole trace, or percentage of the activity this very profile is about. Switching the unit three times restores the whole screen; switching it once or twice does not.", "quantifier": "every reachable UI state", "why_tests_cant": "quantifies over all histories of zooms, toggles, jumps and unit switches", "anchors": ["src/ui/tui/trace/display.rs: switch_duration_unit, register_profile, for_each_profile_layer", "src/ui/tui/trace/mod.rs: percent_norm"]}
{"id": "C60", "title": "Every displayed profile lists the right activities of the loaded trace", "statement": "A hierarchical profile lists exactly the root activities of the trace or the direct children of its activity, a flat one all activities or all transitive children; the profiles form a path: the bottom one is about the trace, each other about a row of the profile right below it. The f shortcut replaces the top profile by its other form and nothing else, twice gives the same screen; Return opens the profile of the selected activity above everything else, or does nothing if it has no children.", "quantifier": "every reachable UI state, every row", "why_tests_cant": "quantifies over all histories and traces", "anchors": ["src/ui/tui/trace/display.rs: make_profile_view, zoom, show_hierarchical_profile", "src/ui/tui/trace/load.rs: show_loader"]}
{"id": "C61", "title": "Navigation: Esc, backtrace and Abort go back to exactly the right screen", "statement": "Esc closes exactly the topmost profile or dialog, undoes a zoom, never closes the last layer, and is disabled exactly while a waiting screen is there; every backtrace entry goes to the profile it names, closing exactly what is above; aborting a load restores the screen from before it (or quits if there was none) and the late completion of an aborted load has no effect; in full-build mode the build profile always stays at the bottom. Defect: after a failed load in single-trace mode, dismissing the message leaves an empty screen.", "quantifier": "every reachable UI state", "why_tests_cant": "quantifies over all histories, including late completions of aborted loads", "anchors": ["src/ui/tui/init.rs: exit_current_layer, backtrace_dialog", "src/ui/tui/trace/load.rs: start_wait_for_input, end_wait_for_input"]}
{"id": "C62", "title": "Background events and global dialogs do not disturb the screen", "statement": "There is at most one dialog of global shortcuts, and such shortcuts do nothing while there is one. Events that the user did not cause never close profiles nor any layer when no trace is awaited; when one is, they close at most the waiting screen and what is above it. Defect: an error message that arrives while a trace is loading is closed by the completion of the load.", "quantifier": "every reachable UI state, every background event", "why_tests_cant": "interleavings of background callbacks with any history", "anchors": ["src/ui/tui/init.rs: set_global_dialog_callback", "src/ui/tui/trace/load.rs: show_loader, end_wait_for_input", "src/ui/tui/trace/measure.rs: start_measure, end_measure"]}
{"id": "C63", "title": "Ordinary C++ names are read as what they spell", "statement": "For every C++ entity built from cv-qualifiers, C-style type names in any keyword order, scoped and templated names, functions (with ABI tag, variadic marker, qualifiers, noexcept, trailing return type), pointers, member pointers, references, arrays, vectors, attributes, overloaded and conversion operators, destructors, decltype, lambdas and other anonymous entities, and from expressions made of literals, names, casts, unary and binary operators, parentheses, sizeof and declval of types, ?:, calls, indexing, member access, postfix ++ and --, pack expansions and ... as an operand (the specification says in which positions an expression could be mistaken for something else), nested without limit, and for every way of writing it down (any amount of blanks between tokens, keywords in any order, characters written as themselves or by any octal, hexadecimal or simple escape), parse_entity consumes the whole text and returns exactly that entity. The same holds for decltype of a new expression: a leading ::, placement arguments, the type, and an initializer that starts with a number. Hence no text is a spelling of two different entities.", "quantifier": "all entities of the covered fragment, of any size and nesting, and all their spellings", "why_tests_cant": "The grammar is recursive and ambiguous by design (types and values overlap, alternatives are tried in order), so whether an alternative shadows another depends on unbounded context.", "anchors": ["cpparser/src/lib.rs parse_entity", "cpparser/src/subparsers/types/mod.rs", "cpparser/src/subparsers/types/declarators.rs", "cpparser/src/subparsers/types/specifiers", "cpparser/src/subparsers/names", "cpparser/src/subparsers/templates.rs", "cpparser/src/subparsers/functions.rs", "cpparser/src/subparsers/operators", "cpparser/src/subparsers/values", "cpparser/src/subparsers/anonymous.rs"]}
{"id": "C64", "title": "Displayed C++ entities parse back to themselves", "statement": "For every C++ entity of the fragment of C63 whose character literals are printable ASCII or have a simple escape, whatever text it was read from, displaying it with a recursion budget above its recursion depth yields a text that parse_entity reads, in full, as the same entity. Hence two different entities are never displayed alike (with enough budget), and display after parse is a canonical form: a second round changes nothing. The same holds of decltype of a new expression whose type is not displayed with a parenthesis first, unless there are placement arguments.", "quantifier": "all entities of the covered fragment (unbounded size and nesting), all texts they can be read from, all sufficient recursion budgets", "why_tests_cant": "Each constructor prints separators that must not merge with any neighbour; the number of combinations is unbounded.", "anchors": ["cpparser/src/display.rs", "cpparser/src/interning/slice.rs", "cpparser/src/lib.rs parse_entity, EntityView", "cpparser/src/subparsers (CustomDisplay implementations)"]}
{"id": "C65", "title": "Where the display round trip stops", "statement": "One would expect the round trip of C64 for every accepted text, and that valid C++ is accepted. Both are false outside the fragment of C63, and the claim is: f(...) is accepted but displayed, at every sufficient budget, as a text that parse_entity rejects; decltype(- -a) and decltype(--a) are read as different entities with the same display, and so are decltype(x++ + y) and decltype(x + ++y); A<'\\x1'> is accepted but displayed as a text that parse_entity rejects; decltype(f(newton)) is read as the new expression decltype(f(new ton)), and decltype(x &::y) as decltype(x::y); decltype((x) + 1) is read as a cast, and after two rounds of display and parse its sign is lost; decltype(new struct (anonymous)) is displayed as decltype(new (anonymous)), which is read as another entity; A<x >= 1>, std :: vector<int>, A<1.5>, A<\"abc\">, A<1'000> and void f(int) are rejected.", "quantifier": "the named texts, every sufficient recursion budget", "why_tests_cant": "These are consequences of the same grammar and display models as C63 and C64, found while proving them; they bound what those properties can say.", "anchors": ["cpparser/src/subparsers/functions.rs display of variadic signatures", "cpparser/src/subparsers/operators/usage.rs parse_new_expression_imut", "cpparser/src/subparsers/values/mod.rs"]}
{"id": "C66", "title": "Polling keeps its schedule, backs off when late, and is postponed by results", "statement": "poll_delay never schedules the next poll in the past and returns the time left until it; while polls are not late the n-th deadline is exactly n intervals after the start (no drift); a late poll raises the interval to 1.1 times the time it took, rounded up to a millisecond, strictly more than before; a worker, which is only woken up by timeouts, never waits longer than one interval; no interleaving of threads brings the interval below its initial value. Defects: in the main thread every job result postpones the next memory check by one more interval (the k-th iteration checks memory at the earliest k intervals after the start, and results coming once per interval starve it for ever); concurrent updates can shrink the interval.", "quantifier": "every history of polls at any instants, any rounding of f64 arithmetic within 2^-53, any interleaving of any number of threads", "why_tests_cant": "depends on all timings and interleavings; the only test is ignored because it is load-sensitive", "anchors": ["cmakeperf/src/measure/mod.rs: PollClock, POLLING_INTERVAL_MILLIS", "cmakeperf/src/measure/main.rs: measure", "cmakeperf/src/measure/worker.rs: process_job"]}
{"id": "C67", "title": "Profiles stay sorted as the user last chose", "statement": "At every moment every profile on screen or further down the stack of views is sorted by the column chosen last (flat profiles use self duration where hierarchical ones use total duration), exactly one column is marked as the sort column, choosing the same column again reverses the direction, and no operation loses, duplicates or changes a row. The direction is the one chosen last, except for the description column after a change of duration unit. Defect: changing the unit rebuilds the duration columns and re-sorts by the direction the description column had when the profile was opened.", "quantifier": "every history of opening profiles, closing them, choosing sort columns and switching duration units, over any rows and any comparison functions", "why_tests_cant": "the state depends on the whole interaction history and on all earlier profiles; there are no TUI tests", "anchors": ["src/ui/tui/trace/display.rs: sort_other_profiles, add_duration_cols_and_sort, switch_duration_unit, SortConfig"]}
{"id": "C68", "title": "What fits in the columns of the tables", "statement": "A duration of a whole number of microseconds fits the 11-character duration column exactly if it is shorter than 86399.995 s (a day, up to rounding); the activity tables take exactly the width of the terminal if the terminal is at least 31 (hierarchical) or 16 (flat) columns wide, and opening them on a narrower one overflows a u16 subtraction; the same for the build table with 15 or 26 columns; the metadata footer never exceeds the terminal.", "quantifier": "every duration in microseconds, every terminal width, every set of footer lines", "why_tests_cant": "needs every duration and every terminal width; boundary values interact with rounding", "anchors": ["src/ui/tui/trace/display.rs: DURATION_WIDTH, show_activity_profile, format_duration", "src/ui/tui/build/display.rs: show_build_profile"]}
{"id": "C69", "title": "The full-build profile table can be drawn and sorted", "statement": "Drawing the table of a full-build profile and sorting it by any of its columns cannot panic exactly if the first unit has no wall-clock time, or all units have one and no unit with a NaN time comes together with another unit with an invalid time. Profiles measured by the program always satisfy it. The time column orders durations by length, then the invalid times in numerical order (-inf first, +inf last). Defects: a CSV with times in the first row only, or with two NaN times, panics.", "quantifier": "every profile (any number of units, any f32 values or absent times), every pair of rows the sort may compare", "why_tests_cant": "the profile is an arbitrary user-supplied file; f32 comparison is partial", "anchors": ["src/ui/tui/build/display.rs: show_build_profile, ProfileColumn, TableViewItem::cmp", "cmakeperf/src/output.rs: UnitProfile::wall_time"]}
{"id": "C70", "title": "A suitable clang++ is recognized", "statement": "clang++ is accepted exactly if it can be run, ends with success and the first line of its output tells (first match of 'clang version <digits>.<digit>') a major version that is written in ASCII, fits in 64 bits and is at least 9. It is reported as too old, with the version so told, exactly if that version is less than 9; every other outcome (program not found, other I/O error, bad status, output not UTF-8, empty output, no version in the first line) is told apart exactly.", "quantifier": "every outcome of running the program, every output text, every character class that may be meant by \\d", "why_tests_cant": "the output is arbitrary text of an external program", "anchors": ["src/clang.rs: find_clangpp, ClangError, MIN_VERSION"]}
{"id": "C71", "title": "The outcome of a compilation job", "statement": "A job succeeds exactly if, after any number of uneventful polls, its process is seen to exit with success having written valid UTF-8; its max_rss is then exactly the largest of the total memories of its process tree sampled at the polls, 0 if it ended before the first poll. It is reported as stopped exactly if the stop flag was up at a poll (or before it was started, in which case no process is run), and then exactly the process and its descendants in the process table are signalled, once each. While it runs, the published elapsed count is the number of polls since its start. Defect: output that is not UTF-8 makes the worker panic even though the compilation succeeded.", "quantifier": "every sequence of polls, process tables, stop flags and exit statuses", "why_tests_cant": "depends on timing, on the process table and on the compiler's output", "anchors": ["cmakeperf/src/measure/worker.rs: process_job, start_job, report_process, report_stdpipe, MonitorClient::keep_job"]}
{"id": "C72", "title": "A job ends only if its messages fit in the pipes", "statement": "A job can end exactly if what it writes to its standard output and to its standard error each fits in the capacity of a pipe; if so it is never blocked. Defect: since the worker reads the pipes only once the process has exited, a compilation that prints more than a pipe holds (64 KiB on Linux) never ends, and the worker polls it for ever.", "quantifier": "every sequence of writes of any sizes, every pipe capacity, every interleaving of the process with the worker's polls", "why_tests_cant": "an unbounded wait; depends on sizes and on the schedule", "anchors": ["cmakeperf/src/measure/worker.rs: start_job, process_job, report_process, report_stdpipe"]}
{"id": "C73", "title": "The measurement always ends", "statement": "Provided each compilation job ends, the measurement of a build ends: whatever the interleaving of the workers and the main thread, the kills, failures and panics, every execution takes at most a number of steps that depends only on the numbers of workers and jobs, plus (workers + 7) for each contended steal or spurious wake-up; as long as it has not ended some thread can go on without such a delay, and from every state the end can be reached.", "quantifier": "every number of workers below 2^32-3 and at least 1, every list of jobs, every schedule, every pattern of kills, failures, panics, retries and spurious wake-ups", "why_tests_cant": "termination under all schedules; a livelock depends on a rare interleaving", "anchors": ["cmakeperf/src/measure/main.rs: measure, WorkQueue", "cmakeperf/src/measure/worker.rs: Worker"]}
{"id": "C74", "title": "What JSON documents mean", "statement": "A JSON document loads exactly when it is an object with one traceEvents array of well-formed events, with no other standard data and a numeric beginningOfTime if any, and when these events fit together as in C58. How each event is written is fixed: mandatory and optional fields with their types, unknown keys ignored, order of keys irrelevant, a known key given twice refused, the last of several values in args counted. One malformed event, or one event of another phase, makes the whole document be refused. Activities get exactly the name, detail, start and duration of their JSON object. Loading panics only for an empty event list or an empty detail. Caveat (proved): if an event gives a stack trace in both notations, a malformed one silently hides the other when it comes first. A document is reported as malformed exactly when it does not have the prescribed shape (events, unit, texts, stack frames, samples); every other refusal is about its content.", "quantifier": "every JSON value, with any nesting, order and repetition of keys, and every type of times with a least element", "why_tests_cant": "infinitely many documents; the derived deserializers interact through flatten, tags and defaults", "anchors": ["clang-time-trace/src/ctf/mod.rs: TraceDataObject, TraceEvent, EventCategories, DisplayTimeUnit, Sample", "clang-time-trace/src/ctf/events/duration.rs: DurationEvent", "clang-time-trace/src/ctf/events/metadata.rs: MetadataEvent, MetadataOptions, NameArgs", "clang-time-trace/src/ctf/stack.rs: StackTrace, EndStackTrace, StackFrameId", "clang-time-trace/src/lib.rs: ClangTrace::from_str"]}
{"id": "C75", "title": "What compile_commands.json means", "statement": "A compilation database is read exactly when it is an array of entries with directory, command and file (and possibly output), all strings, nothing else; the entry found for a file is the last one given for it. The command is split into words as a shell does (blanks, comments, both quotations, escapes, continued lines), for every text; any list of words can be written so that it is read back. The compilation runs the first word with the others as arguments in the entry's directory, and a trace is measured with clang++ -ftime-trace and the same arguments. Caveats (proved): one entry with another key, such as the arguments form, makes the whole database unreadable; in a command that ends within a quotation the unfinished word is dropped silently, with all that it swallowed.", "quantifier": "every JSON value, every command text, every list of words", "why_tests_cant": "infinitely many texts; quoting rules interact", "anchors": ["cmakeperf/src/commands.rs: CompilationDatabase::from_str, DatabaseEntry, full_args, program, args", "cmakeperf/src/measure/worker.rs: start_job", "src/ui/tui/trace/measure.rs: show_wizard"]}
{"id": "C76", "title": "A unit of the build profile leads back to its compilation command", "statement": "The path under which a unit is recorded, followed from the directory where it was measured, leads to the same place as the source path of its compilation database entry, whatever links and .. the latter goes through; so selecting the unit finds the compilation command of its file when the database gives the file's real path. In general the command found is that of an entry whose path is the real path of the source file. Caveats (proved): a unit whose path in the database goes through a symbolic link is reported as having no entry, and an entry with a relative file path is never found.", "quantifier": "all file systems with symbolic links, working directories, source paths and compilation databases", "why_tests_cant": "Tests use a few paths; path subtraction and link resolution must agree on every tree and every spelling of a path.", "anchors": ["cmakeperf/src/measure/worker.rs: run_job", "src/ui/tui/trace/measure.rs: show_wizard", "cmakeperf/src/commands.rs: CompilationDatabase::entry"]}
{"id": "C77", "title": "Selecting a unit shows the trace of that unit", "statement": "Selecting a unit of the build profile measures a trace exactly when its compilation command was found, its output is known, the freshness of its trace could be checked and the user answered so; clang is then run with that command's arguments in its directory. A trace is shown without measuring only if it is the one of that unit and it exists; the default answer reuses an existing trace and measures a missing one. The path at which the trace is then looked for leads to the file that clang, run with that -o in that directory, writes, through any links. When something is missing, the dialog shown names the true reason: the unit's path leads nowhere, or to no file of the database, or the entry does not tell its output, or the freshness could not be checked.", "quantifier": "all file systems with links, working directories, compilation databases, commands, file times and user answers", "why_tests_cant": "The result composes path subtraction, link resolution, lookup, argument scanning, file times and a dialog; only a proof covers their combinations.", "anchors": ["src/ui/tui/trace/measure.rs: show_wizard", "cmakeperf/src/commands.rs: DatabaseEntry::output, DatabaseEntry::derived_freshness", "src/ui/tui/create.rs: CreatePrompt"]}
{"id": "C78", "title": "Build profiles survive being written and read", "statement": "A measured build profile written to its CSV file is loaded back unit for unit, whatever the paths contain (commas, quotes, line endings), with or without times, and even if it is empty. A file is loaded exactly when its records, split as CSV prescribes for every text, name one file and one max_rss column (decimal or 0x numbers below 2^64) and at most one time column (empty meaning none), other columns being ignored, and all have the header's length. If only a beginning of the file was written, loading fails or gives the first units, with right paths and sizes; only the time of the last one may be wrong. Caveat (proved): a file cut within a time is accepted with the wrong time.", "quantifier": "all profiles, all texts of profile files, all points at which writing stops", "why_tests_cant": "Tests read two literal files; the round trip must hold for all paths and the damage must be bounded for every point at which writing can be interrupted.", "anchors": ["cmakeperf/src/output.rs: load, from_csv_reader, UnitProfile", "cmakeperf/src/measure/main.rs: run"]}
{"id": "C79", "title": "Trace files and compilation databases are read whole or not at all", "statement": "A file is read as the JSON value that its UTF-8 text spells under the JSON grammar (any blanks, any escapes of characters including surrogate pairs, any spelling of numbers), exactly if the text is one value and nothing else, at most 127 levels deep; a text has one meaning. Hence a trace or a compilation database that was cut at any byte (by a crash, a kill, a full disk) is refused unless only blanks were lost, and one that is followed by anything but blanks is refused: neither is ever taken for a shorter one. Integers are read as integers exactly if they fit in 64 bits, all others and -0 as floating point numbers.", "quantifier": "every byte sequence, every cut point, every JSON value and way of writing it, every conversion of decimal numbers", "why_tests_cant": "The texts, escapes, nestings and cut points are unbounded; tests try a handful of files.", "anchors": ["clang-time-trace/src/lib.rs: ClangTrace::from_file, from_str", "cmakeperf/src/commands.rs: CompilationDatabase::load, from_str"]}
{"id": "C80", "title": "Jobs are neither lost nor overslept on weakly ordered processors", "statement": "On a memory with release/acquire semantics, where a worker may read old values and sees pushes only through the synchronization of the code: a worker never falls asleep on the latest notification while a fully pushed job is still in the queue; whenever a worker sleeps and the main thread is between two operations, at least as many workers are awake and about to look at the queue as there are jobs in it; a worker ends without failure only after the queue was closed and every job was taken; after the queue was closed nobody stays asleep. The Release store and the Acquire load of the notification word are both necessary: without either, a pushed job can be left in the queue while every worker sleeps.", "quantifier": "every number of workers and jobs, every interleaving, every admissible choice of stale values, every spurious wake-up and failure, up to 2^32 - 3 later pushes", "why_tests_cant": "Weak memory behaviours depend on processor, compiler and timing; x86 machines never show them.", "anchors": ["cmakeperf/src/measure/main.rs: WorkSender::start, push, close, update_futex", "cmakeperf/src/measure/worker.rs: WorkReceiver::wait, next", "cmakeperf/src/measure/mod.rs: WorkQueue"]}
{"id": "C81", "title": "Stop requests on weakly ordered processors", "statement": "On a memory with release/acquire semantics: a worker is told to stop only if the main thread asked this worker, or all of them, to stop; once told to stop it is told so for ever; it is told so whenever it has heard of the main thread after the request; a worker is never refused a first stop request nor given a second one; and a worker that is told to stop sees everything that the main thread wrote before the request. The Release store of stop, the Release fence of stop_all and the Acquire fence of must_stop are all necessary for the last point.", "quantifier": "every number of workers and bits per word, every interleaving of writes, stops, polls and reads, every admissible choice of stale values", "why_tests_cant": "Weak memory behaviours depend on processor, compiler and timing; tests run one interleaving on strongly ordered machines.", "anchors": ["cmakeperf/src/measure/main.rs: StopServer::stop, stop_all", "cmakeperf/src/measure/worker.rs: StopClient::must_stop", "cmakeperf/src/measure/mod.rs: StopFlags"]}
{"id": "C82", "title": "What a non-interactive run prints, and when it fails", "statement": "The non-interactive interface runs if it is asked for, or by default if standard input or output is not a terminal; it uses the largest width allowed by both the option and the terminal. Without a loadable file it prints nothing but a message on standard error (and still ends with status 0). For every loaded trace the report is printed to its end exactly if there is one column (three if any activity belongs to the flat profile), the recording date has a four-digit year (or the process name does not fit), the trace has exactly one root activity, and the arguments of the activities shown parse without panic; otherwise the program panics - with zero or several roots, after the flat profile. A complete report consists of the metadata, the types (each once, longest first, those below the threshold counted), exactly the activities above the threshold hottest first, and the drawing of the hot call tree; metadata, activity and tree lines fit in the columns.", "quantifier": "every command line, terminal, loaded trace, threshold (NaN included), order of equals chosen by sorting, and number of columns up to 65535", "why_tests_cant": "the traces, widths and thresholds are unbounded, and the tests only run on one trace with one root", "anchors": ["src/main.rs: main", "src/ui/stdio.rs: run, print_activity_type_profile, print_flat_profile, print_hierarchical_profile", "src/trace.rs: duration_norm", "src/ui/display/metadata.rs: metadata"]}
{"id": "C83", "title": "Waiting for a trace measurement, and aborting it", "statement": "While clang measures a trace, the wait ends exactly if clang ends by itself, the user presses Abort, or the operating system refuses to report on the process. Success is reported only for a clang that succeeded, abortion only if Abort was pressed; an error message says what failed, and for a failed clang gives its status and everything it wrote on standard output and standard error. Abort is obeyed within 33 ms (plus scheduling delays) unless clang ends within that time; without Abort the result is reported as soon as clang ends. Afterwards the screen is what it was before, plus the loading screen (success) or the error messages, whatever dialogs were opened meanwhile, and the refresh rate and the Escape key are restored. Defect: clang's pipes are read only after it has ended, so a clang that writes more than a pipe holds never ends and its measurement can only be aborted.", "quantifier": "every moment at which clang ends or Abort is pressed, every scheduling delay, every failing system call, every output of clang, every stack of layers", "why_tests_cant": "races between the end of clang, Abort and the polling period; unbounded outputs", "anchors": ["src/ui/tui/trace/measure.rs: start_measure, end_measure, CancelableClang::wait, child_failure_message"]}
{"id": "C84", "title": "The simpp command", "statement": "simpp prints a line exactly if it is given a text (the argument, otherwise standard input if that is not a terminal), at least one column, and the whole text is a C++ entity; otherwise it panics without output. What it prints fits in the columns and is the display at the largest recursion limit such that this and all lower limits fit, or an ellipsis. Every spelling of an ordinary entity, also with blanks or a line feed at its end, is printed; when all its displays fit, the printed text spells the same entity and is a fixed point of simpp. The entity <unknown> is the exception: with a line feed at its end it is rejected.", "quantifier": "every argument, standard input and width; every ordinary entity (C63), its spellings and blanks", "why_tests_cant": "all entities, unbounded nesting, all widths", "anchors": ["simpp/src/main.rs: main"]}
{"id": "C85", "title": "Out-of-memory victims are the workers that polled their last job the least", "statement": "Through every interleaving of the workers, the counter that a worker publishes is the number of times it polled the last job it started; it is reset by each new job and kept while the worker is idle or gone. Hence, whenever the monitor stops a worker for lack of memory, and at whatever moments it read the counters (even if the values are stale), that worker had polled its last job at most as many times as every worker still active. One would expect that only workers with a running job are stopped, since only those use memory: this is false, and as long as a worker that never started a job is active no worker that has polled its job is stopped; a worker that finished a short job and waits is stopped in place of one with a longer job.", "quantifier": "every number of workers, every interleaving of starts, polls, ends and failures of jobs, every history of memory readings, every moment at which each counter is read", "why_tests_cant": "depends on the interleaving of workers and on when a relaxed atomic is read", "anchors": ["cmakeperf/src/measure/worker.rs: MonitorClient::update_elapsed, keep_job, switch_job, process_job", "cmakeperf/src/measure/main.rs: MonitorServer::handle_oom_and_termination"]}
{"id": "C86", "title": "Percentages and thresholds are accurate, ordered and at most 100% in floating point", "statement": "For a duration between 0 and the total, the percentage printed by the non-interactive report, and that of the interactive tables, is between 0.00 and 100.00 and within half a hundredth (plus 2^-44) of the true percentage. For a trace in whole microseconds that ends before 2^53 microseconds this holds of every line of the profile by type, from the times in the trace to the printed digits, whenever the root activities do not all last 0. Rounding never swaps two durations: a longer one never has a smaller share or percentage. So the profile by type, which stops at the first type below the threshold, prints exactly the types whose computed share reaches the threshold, and the number of the others. The comparison with the threshold option decides as the true percentage would unless the two differ by less than 2^-44. One would expect that the whole is always 100%: this is false, 49 microseconds of 49 are computed to be less than the whole, so with a threshold of 100% the only type is not printed.", "quantifier": "every total between 2^-1000 and 2^1000, every duration within it, every threshold from 0 to 100, every list of types sorted by duration", "why_tests_cant": "rounding errors depend on the exact operands, no sample covers them", "anchors": ["src/trace.rs: duration_norm", "src/ui/stdio.rs: print_activity_type_profile, display_profile_info", "src/ui/tui/trace/mod.rs: percent_norm", "src/ui/tui/trace/display.rs: to_column"]}
{"id": "C87", "title": "A trace file in whole microseconds is analysed without any rounding error, from its bytes to its totals", "statement": "Suppose that a trace file loads and that its complete events give their start and duration as integers (as clang writes them) and end before 2^53 microseconds. Then, although the program computes with binary64 floats throughout: the self-duration of every activity is exactly its duration minus the durations of its direct children and is never negative; the duration of every activity is exactly the sum of the self-durations of the activity and everything inside it; the total duration of the trace is exactly the sum of the durations of the root activities, and exactly the sum of all self-durations; each line of the profile by activity type is exactly the sum of the self-durations of that type, and the lines add up to exactly the total; and each percentage, as printed, is between 0.00 and 100.00 and within half a hundredth (plus 2^-44) of the true share, unless all root activities last 0.", "quantifier": "every file content that loads, with integer times that end before 2^53; every activity, every order in which a hash map lists the types", "why_tests_cant": "sums of floats are exact on the small numbers of a test and may be off by a rounding on others; the claim ranges over every trace", "anchors": ["clang-time-trace/src/lib.rs: ClangTrace::from_file, from_str", "clang-time-trace/src/tree.rs: ActivityTreeBuilder::insert", "clang-time-trace/src/stats/activity/mod.rs: end", "src/trace.rs: duration_norm, activity_type_breakdown", "src/ui/stdio.rs: print_activity_type_profile"]}
{"id": "C88", "title": "No hot activity hides below a cold one, and rounding only matters at the threshold", "statement": "For a trace file in whole microseconds whose root activities do not all last 0, with every operation in binary64: the hierarchical report below any activity shows exactly the activities inside it (at any depth) whose computed share of the total duration reaches the threshold, as long as columns are left, so that an activity that reaches the threshold is never hidden because one that contains it is not shown; the flat report lists exactly the activities whose self-duration's share reaches the threshold, each once, and never one without those that have more self-duration; and with a threshold given in percent from 0 to 100, both decide as exact arithmetic would unless the true percentage is within 2^-44 of the threshold.", "quantifier": "every file content that loads, with integer times that end before 2^53; every threshold (NaN included), every activity and depth, 1 to 65535 columns, every order of equals", "why_tests_cant": "it needs that rounding never makes a part larger than the whole, for every pair of durations and every total", "anchors": ["src/ui/stdio.rs: print_flat_profile, hierarchical_profile_tree", "src/trace.rs: duration_norm, hottest_activities", "clang-time-trace/src/tree.rs: ActivityTreeBuilder::insert"]}
{"id": "C89", "title": "A full-build profile, from the compilation database to the screen", "statement": "When a full-build measurement ends with success, the profile file loads and has exactly one unit per source file of the compilation database (the last command given for it), with the path from the working directory, exactly the memory usage measured and, if asked for, the duration measured to single precision; its table can be drawn and sorted by every column. At any moment of the measurement, if a beginning of the file is loaded, its units are distinct source files of the database with the right paths and memory usages. Selecting a unit in the directory where it was measured leads to the compilation command that was measured when the database gives the real path of its source file.", "quantifier": "all compilation databases, schedules, numbers of workers, patterns of out-of-memory kills and restarts, measured values, interruption points, file systems", "why_tests_cant": "it composes every schedule of the measurement with every value measured and every point at which writing can stop", "anchors": ["cmakeperf/src/measure/mod.rs: Measurement::start", "cmakeperf/src/measure/main.rs: run", "cmakeperf/src/measure/worker.rs: process_job", "cmakeperf/src/output.rs: load, UnitProfile::new, wall_time", "cmakeperf/src/commands.rs: CompilationDatabase::entries", "src/ui/tui/build/display.rs", "src/ui/tui/trace/measure.rs: start"]}
{"id": "C90", "title": "What the argument of an unknown activity is taken for", "statement": "The argument text of an activity unknown to crofiler is taken for exactly one thing: a symbol if, without one pair of enclosing parentheses, it is main, __clang_call_terminate or starts with _Z, __cxx_global_var_init or _GLOBAL__sub_I_; the unnamed loop or module marker; a file path if it is absolute; plain text if it starts with an uppercase letter and each of its words is &, memcmp() or made of letters and digits with, inside, dashes, slashes, -> and underscores after capitals; and a C++ entity otherwise. Resolving such an argument then gives what the text says, and fails only if it was taken for a C++ entity and is not one.", "quantifier": "all nonempty detail texts, activity names outside the table, classes of uppercase and alphanumeric characters, entity parsers and demanglers", "why_tests_cant": "the classification ranges over all texts; the tests show a dozen of them", "anchors": ["clang-time-trace/src/stats/activity/argument.rs: ActivityArgumentType::infer_from_detail", "clang-time-trace/src/stats/activity/mod.rs: Activity::parse", "clang-time-trace/src/stats/activity/argument.rs: RawActivityArgument::parse"]}
{"id": "C91", "title": "How many compilers run at once", "statement": "A full-build measurement uses the number of workers asked for; by default one when times are measured, else the number of CPU threads, else four. At any moment of any execution at most that many compilers are running, none of them runs the same command as another, and none runs a command that is already recorded or reported as failed. With times measured and the default number of workers, no compiler starts while another one is running.", "quantifier": "all configurations, job lists, schedules, kills, restarts and failures", "why_tests_cant": "it must hold at every moment of every interleaving of the workers", "anchors": ["cmakeperf/src/measure/main.rs: concurrency, available_parallelism, run", "cmakeperf/src/measure/worker.rs: run, process_job"]}
{"id": "C92", "title": "Keys of C++ entities stand for the entities", "statement": "Whatever an EntityParser has been used for before and in between, including texts it rejected and readings it gave up, two calls of parse_entity return equal keys exactly when the two texts read as the same entity; two spellings of one entity therefore compare equal and spellings of different entities do not. A key reads back as exactly the entity it was returned for, at once and after anything interned later. The only way for interning to fail is running out of keys; it cannot happen within the first 1023 parts of entities with sequences of less than 64 items, and it must happen before 1087 different non-empty lists of call arguments are interned.", "quantifier": "all histories of interned entities of all sorts, all sessions of parse_entity calls with arbitrary discarded entities in between, all entities", "why_tests_cant": "it must hold for every history of the shared tables, in which keys of keys are compared instead of trees", "anchors": ["cpparser/src/lib.rs: EntityParser, parse_entity, entity, EntityView", "cpparser/src/interning/recursion.rs: RecursiveSequenceInterner", "cpparser/src/subparsers/types/mod.rs: TypeKey, TypeLike, TypeView", "cpparser/src/subparsers/values/mod.rs: ValueKey, ValueTrailerKey", "cpparser/src/subparsers/functions.rs: FunctionArgumentsKey, FunctionParametersKey", "cpparser/src/subparsers/templates.rs: TemplateParameterListKey", "cpparser/src/subparsers/names/scopes.rs: ScopesKey", "asylum/src/sequence.rs: SequenceInterner"]}
{"id": "C93", "title": "Rounding errors of self-durations are bounded, and never raise one above the duration", "statement": "For every trace that loads, with any non-negative binary64 times in microseconds, fractions included: no activity has a self-duration above its duration; if all activities end before 2^k microseconds, the self-duration of an activity with n direct children differs from its duration minus theirs by at most (n+1)*2^(k-53), and is at least -2(n+1)*2^(k-53); the self-durations of an activity and its descendants, N in all, add up to its duration within 2N*2^(k-53), and those of the whole trace of N activities to the durations of its roots within 2N*2^(k-53). (For a compilation of less than 2.4 hours, k = 33: about a picosecond per activity.) In the profile by activity type, computed with rounded additions, no comparison panics, the time of each type is within 3N*2^(k-53) of the exact sum of its exact self-durations, the total that shares are taken of is within N*2^(k-53) of the exact sum of root durations, and each printed percentage is within half a hundredth plus 500N*2^(k-53)/total plus 2^-43 of the exact share. Rounding never swaps two durations or self-durations, negative ones included. The non-interactive reports never list or show an activity (or activity type) whose exact percentage is below the threshold option by more than that margin (without the half hundredth), and, as long as columns are left, always list or show one that exceeds it by that margin, at any depth; within the margin an activity whose computed share reaches the threshold can be hidden in the hierarchical report, inside one that is shorter by a rounding error.", "quantifier": "all loadable traces of at most 2^50 activities with arbitrary non-negative binary64 starts and durations, all activities of them, all bounds 2^k on the end of the trace (below the largest binary64 number)", "why_tests_cant": "Whole microseconds hide all rounding; the error depends on the number of children and on every value, and a test compares a handful of them.", "anchors": ["clang-time-trace/src/tree.rs: ActivityTreeBuilder::insert, ActivityTrace::self_duration, duration", "clang-time-trace/src/stats/activity/mod.rs: ActivityStat::end, duration", "clang-time-trace/src/ctf/mod.rs: Timestamp, Duration", "src/ui/stdio.rs: run, print_flat_profile, print_hierarchical_profile"]}
{"id": "C94", "title": "Times written as decimal numbers are read with a bounded error", "statement": "A time of a trace (start or duration) may be written in any way the JSON grammar allows: sign, integer part, fraction, exponent, any number of digits. If its digits (without the point) form a number below 2^53 and its exponent of ten, after removing the point, lies between -22 and 22 (as in 1234567.891), it is read as the binary64 number nearest to what the text says; in particular a whole number of microseconds below 2^53 is then read exactly (1500.0 or 15e2 like 1500). Whatever its digits, a time of at most 1e280 in absolute value is never refused; from 1e-280 on it differs from what the text says by at most 2^-50 of it, and below that by at most 2^-899 more. A number of 1e310 or more is refused, not read as an infinity.", "quantifier": "all number texts of the JSON grammar of less than 2^30 characters, with any digits, signs and exponents", "why_tests_cant": "The error depends on every digit and on the exponent; the conversion drops digits that do not fit in 64 bits and rounds up to three times, so the bound can only be had from an argument over all texts.", "anchors": ["clang-time-trace/src/ctf/mod.rs: Timestamp, Duration", "clang-time-trace/src/lib.rs: ClangTrace::from_file, FromStr for ClangTrace", "Cargo.toml: serde_json"]}
