# Formal model of HadrienG2/crofiler in Lean 4 — design

## Trusted base
* Lean 4.33.0's kernel (theorems are re-checked by `vcheck`'s kernel replay).
* Axioms: only Lean's standard `propext`, `Quot.sound`, `Classical.choice` (per-theorem list: `AXIOMS.md`).
  No axioms of our own, no compiled-code evaluation.
* The faithfulness of the hand-written model to the Rust source. Every definition cites the file and lines it
  models and says where it simplifies. The Rust standard library, serde_json, lasso, nom, cursive, crossbeam,
  sysinfo and the operating system are represented by their documented behaviour.

## Conventions
* `Verif/<Area>/Model.lean` — executable, total model functions; panics are explicit (`Except`/`Option`/`none`
  outcomes named `panic`), never hidden by totalization.
* `Verif/<Area>/Spec.lean` (or the head of Props) — small independent specification.
* `Verif/<Area>/Props.lean` — the property theorems, names starting with the property id (`c01_…`), each with a
  concrete `example` meeting its hypotheses. `Lemmas.lean` — proofs.
* Where the code violates the property a user would expect, the property is stated as what holds (the exact
  condition), a theorem with suffix `_violated`/`_refuted`/`_panics` exhibits the defect on a concrete run of the model,
  and the statement in `properties.jsonl` says so.
* `tools/claim.py`, `tools/prop.py` edit MANIFEST.json / properties.jsonl; `tools/mk.py` regenerates `lean/Verif.lean`;
  `tools/axioms.py` regenerates AXIOMS.md. `seeded/LOG.jsonl` records every wrong program tried.
* Non-vacuity: every theorem of the manifest that has hypotheses is applied to a concrete case, in an `example` beside it, in
  the module `Witness` of its directory, or by a theorem without hypotheses (a violation, a run). `tools/witness.py` checks
  this over the compiled environment and lists the theorems that are not.

## Numbers
Timestamps/durations are `f64` in the code. Structural theorems about the activity tree are proved for an
*arbitrary linearly ordered type* with arbitrary `end`, `duration` fields and arbitrary add/sub functions, hence they
apply to non-NaN floats (JSON cannot contain NaN). Sum identities are proved over exact numbers (ordered groups); they
transfer to `f64` for times in whole microseconds. `Tree/Binary64` models IEEE 754 binary64 rounding (round to nearest
even, gradual underflow, no overflow) as a function on ℚ; the display of durations (C33), the shares and thresholds (C86), the totals (C40)
and the self-durations (C05, with C40 for whole microseconds) are proved in that arithmetic. `usize`/`u32`/`u64` are modelled as bounded naturals where the
bound matters (keys, futex, stop flags), with the overflow outcome explicit.

## Plan per property
| id | model (under lean/Verif) | what is proved, and how |
|---|---|---|
| C01–C06 | `Tree/Model`: builder insert/build/accessors of tree.rs as functions on lists, panics explicit | invariant over insert histories; refinement to an inductive forest; acceptance is an iff |
| C07–C10, C58 | `Trace/Model`: `from_str` as a fold over events with explicit errors and panics | invariant on the fold state; exact criterion for acceptance (`Trace/Accept`) and for panics |
| C11–C13, C51 | `Trace/Args`, `Trace/ArgParse`: argument/statistic/metadata parsing over association lists in any order | case analysis, permutation invariance, iff against tables of accepted shapes |
| C14 | `Intern/Interner`: indexed set | invariant over histories, exact panic condition (`Intern/Progress`) |
| C15 | `Intern/SeqKey`: packing arithmetic over Nat with arbitrary word width and inner capacity | shift/or arithmetic |
| C16, C17 | `Intern/Seq`: concatenated item vector + key map + open entry | invariant over op histories, refinement to an abstract set of sequences |
| C18 | `Intern/Path`, `Intern/PathStats`: component fold, usage statistics | refinement to a lexical normalization spec |
| C19 | `Intern/Rec`: pool of buffers with open entries | refinement to independent stacks |
| C20 | `Measure/StopFlags`: words of bits | bit lemmas; exact enumeration including the defect at multiples of 64 |
| C21, C22 | `Measure/Futex`, `Measure/Liveness`: futex counter, interleaving transition system of main thread and n workers | inductive invariant over reachable states; no-deadlock |
| C23, C24 | `Measure/Protocol`: whole measurement protocol | inductive invariant (multiset conservation) over all schedules |
| C66 | `Measure/PollClock`: poll_delay with arbitrary rounding, loops that use it, interleavings of the shared interval | arithmetic with error bounds; induction over histories; inductive invariant |
| C67 | `Tui/Sorting`: stack of profile tables, sort configuration, table widget from its documentation | inductive invariant over interaction histories |
| C68 | `Display/Columns`: rendered durations and table geometry | digit-length arithmetic, exact criteria |
| C69 | `Build/ProfileTable`: rows, columns and partial comparison of the build profile table | exact criterion over all profiles |
| C70 | `Build/Clang`: outcome of the version probe, leftmost regex match, number parsing | declarative version specification, exact criteria |
| C71, C72 | `Measure/Job`: one job of a worker (polls, samples, stop flag), pipes as bounded buffers | induction over polls, peak specification; invariant of the pipe transition system |
| C73 | `Measure/Termination`: executions of the protocol with delays counted | ranking function decreased by every undelayed step; progress from C22 |
| C74 | `Trace/Json`, `JsonProps`, `JsonDoc`: the code serde derives for trace documents, on JSON values with ordered, possibly repeated keys | iff against a declarative description of events and documents, lifted to C07, C10, C58 |
| C75 | `Build/Shlex` (words of a command line), `Build/DatabaseJson` (entries from JSON, commands started) | inductive relation between texts and words, proved total and exact; iff for JSON values, lifted to C27 |
| C76 | `Build/Unit` (`pathdiff::diff_paths`, `Path::canonicalize` on a tree with links, `show_wizard` up to the entry) | induction on the common prefix of both paths, for every tree and link limit; lifted to C27 |
| C77 | `Tui/Wizard` (`show_wizard` as a whole, `set_extension`) | iff for the measurement, composed from C76, C29, C28, C45 and C75; two-step link resolution by induction for the place of the trace |
| C78 | `Build/Csv` (writer and reader automaton of the csv crate), `Build/ProfileCsv` (units as records, columns, numbers, `load`), `Build/FloatText` (`f32` as decimal text: `ryu` by what it computes and its layout, `f32::from_str` by its grammar and exact rounding) | grammar of CSV texts proved total and exact by an invariant on the automaton; round trip through it; every prefix of a written file analysed by induction; nine digits suffice, so shortest decimals read back |
| C79 | `Trace/JsonText`, `Trace/JsonWrite`, `Build/JsonFiles` | recursive-descent reader of JSON texts (serde_json) against the grammar of RFC 8259 as an inductive relation: soundness by induction on the recursion bound, completeness by induction on derivations; cuts by determinism and prefix-freeness of UTF-8 |
| C80 | `Measure/WeakMemory`: work queue on a release/acquire view machine | inductive invariant on message histories and thread views over all reachable states; counting of awake workers; counterexample executions for weaker orderings |
| C81 | `Measure/WeakStop`: stop flags on the same machine | invariants on traces (monotone words, published views); counterexample executions for weaker orderings |
| C82 | `Analysis/Stdio`: command line to last line (sections, panics, termtree drawing) | iff for completeness by induction on the width; composition of C34, C39, C40, C55, C56; drawing loop equals a preorder description |
| C83 | `Tui/TraceWait`: polling loop in timed environments (exit, Abort, failing calls, delays), message, screen | induction on the loop relation; bounds by induction on the remaining time; pipes from C72 |
| C84 | `Cpp/Simpp`: command line or stdin to printed line | composition of C36, C37, C49, C63, C64; `<unknown>` by the head character |
| C40, C86 | `Analysis/FloatBreakdown` (rounded sums), `Analysis/Share`: shares, percentages and thresholds, every operation rounded (`Tree/Binary64`) | relative error bounds; monotonicity of rounding |
| C87 | `Tree/F64` (`f64` timestamps and durations, every operation rounded), `Analysis/WholeTrace`: JSON text → document → tree → totals, percentages | map of types of times over the tree builder (`load_mapTD`), then C05, C40, C86, C74, C79 |
| C88 | `Analysis/HotTree`: shares in binary64 as the metric of `hottest_activities` and `hierarchical_profile_tree` | induction on depth with C87 (a part lasts no longer than the whole), monotone rounding (C86), C56 |
| C89 | `Build/EndToEnd`: database → jobs → any run of the protocol → file → loaded profile → table and selection | composition of C27, C24, C30, C76, C78, C69 |
| C90 | `Trace/Infer`: `infer_from_detail` against an independent specification of words, texts and symbols | word splitting is the inverse of joining; induction on the middle of words; composition with C11 and C51 |
| C91 | `Measure/Concurrency`: `concurrency`, `available_parallelism` on top of the protocol of C23 | conservation of jobs (C23) bounds the running ones; case analysis on steps for a single worker |
| C92 | `Cpp/Keys`: the interners of `EntityParser`, entities as trees with the interned parts marked, `put`, sessions of `parse_entity` | what a key reads as is functional (induction), injective (no duplicates in any table) and monotone (tables only grow); capacity by counting items |
| C93 | `Tree/FracTimes`, `Analysis/FracTrace`, `Analysis/FracDoc` (from the JSON document), `Analysis/FracHot`, `Analysis/FracTypes` (reports): the tree of `Tree/F64` for arbitrary binary64 times | the shape does not depend on durations (`load_mapTD` to the unit type), so exact identities of C05 hold of the same tree with exact weights; errors by induction on the rounded sum of children, the excess of children by telescoping of rounded ends, the count of children by weights of one; the profile by rounded sums over sublists of the activities |
| C94 | `Analysis/DecimalTimes`, `Analysis/DecimalTiny` (numbers below 1e-280 and above 1e310): the decimal-to-binary64 conversion of serde_json without `float_roundtrip` (u64 significand, powers of ten up to 1e308, one multiplication or division) as the parameter `dec` of `Trace/JsonText` | induction over the digits (kept digits stand for the number within 2^-60), then a product of three rounding factors; exact powers of ten up to 22 |
| C85 | `Measure/Youngest`: counters that workers publish per job, in any interleaving, read at any (even stale) moments | invariant on the event history, composed with C25 |
| C25 | `Measure/Oom`: monitor loop | well-founded loop reasoning, minimality |
| C26 | `Measure/ProcTree`: BFS over the process table | transitive-closure spec |
| C27–C29 | `Build/Database`: compilation database, freshness, output path | direct, all file systems / databases |
| C30 | `Build/WallTime`: f32 seconds to durations and back | exact dyadic arithmetic |
| C33 | `Display/Duration` over exact numbers, `Display/DurationFloat` over binary64 | case analysis; remainders are exact because the units are multiples of the last place; a counterexample above 2^66 |
| C31–C36, C52 | `Display/*`: strings as lists of grapheme clusters with arbitrary widths | loop invariants; exact widths; maximality of the shown depth |
| C37, C38, C53 | `Cpp/Ast`, `Cpp/EntityDisplay`: the C++ entity AST with budgeted display and recursion depth | mutual structural induction |
| C39, C40, C54–C56 | `Analysis/Hot`, `Analysis/Report` | permutation, sortedness, iff on what is printed |
| C41 | `Tui/Processing`: UI and processing thread with request/reply channels and caches | cache-coherence invariant over all interleavings |
| C42, C59–C62 | `Tui/Stack*`, `Tui/Navigation`: layer stack automaton with the loader thread | inductive invariant over all histories |
| C43, C44 | `Tui/Files`, `Tui/TraceBackup`, `Tui/BuildBackup`: file system map, UI, waiting thread, clang/measurement thread | case analysis + invariants over all interleavings and I/O failures |
| C45, C57 | `Tui/Prompt` | case analysis over all states; duration arithmetic |
| C46, C48 | `Cpp/Atoms`, `Cpp/AtomsProps`: legacy type names, qualifiers | fold invariants against tables of spellings |
| C47 | `Cpp/Operators` | exact panic condition, soundness, completeness |
| C49 | `Cpp/Nom`, `Cpp/Grammar`: every parser function of cpparser as a fuelled function | progress: the fuel never runs out and is irrelevant; grammar equations as fixpoint |
| C50 | `Cpp/GrammarSafe`, `Cpp/GrammarFacts` | sufficient condition for not panicking, for every input; families of panicking inputs |
| C63 | `Cpp/Spelling` (specification: an inductive relation between texts and entities, written without the parser) | completeness of the parser for every spelling, by induction on the derivation (`SpellingRun … SpellingMain`; `new` expressions in `SpellingNew`) |
| C64, C65 | `Cpp/DisplayText`, `DisplayRound`, `DisplayMain`, `DisplayNew`, `DisplayLimits` | the displayed text is a spelling of the entity, hence parses back; exhibited failures outside the fragment |

## What is modelled, per source file
| source | modelled | not modelled |
|---|---|---|
| asylum/src/{lib,sequence,path}.rs | all operations | hash functions, memory growth; lasso and std::path trusted |
| clang-time-trace/src/{lib,tree,metadata}.rs, ctf/**, stats/** | loading, tree, accessors, argument resolution, float rounding, exact for whole-µs times (`Tree/Float`, `Tree/Binary64`) and bounded for fractional ones (`Tree/FracTimes`) | C++ demangler |
| cpparser/src/** | every parser function, the entity display, interner recursion | the exact order in which the parser interns parts (arbitrary in C92); C01-C91 compare entities by value, C92 shows that keys do the same |
| cmakeperf/src/commands.rs, output.rs | database file from its bytes, splitting of commands, freshness, wall times | - |
| cmakeperf/src/measure/** | work queue, futex, stop flags, OOM handling, process trees, main/worker protocol; release/acquire memory for the notification word and the stop flags (C80, C81) | memory ordering of the other shared state (crossbeam queues, channel, `elapsed`: trusted), real processes, /proc |
| src/ui/display/** | all truncation/width arithmetic | Unicode segmentation and glyph widths (arbitrary functions) |
| src/clang.rs | find_clangpp | spawning, UTF-8 decoding, regex engine |
| src/main.rs, src/ui/stdio.rs, src/trace.rs | choice of the interface, the whole run and its three reports | command line parsing, infinities and overflow of `f64`, digits of numbers, writing to stdout |
| src/ui/tui/** | layer stack, navigation, prompts, processing thread, backups, freshness prompt, loaders | cursive widgets and rendering |
| simpp | from the text given to the line printed (C84) | command line parsing |
| cmakeperf/src/bin, tests, benches | no | command line parsing, logging, tests |

## Not modelled
Terminal rendering (cursive widgets), memory ordering inside crossbeam, std channels and locks, interner key capacity other than where stated, Unicode segmentation itself (graphemes and
their widths are inputs), float rounding other than where stated under Numbers, process spawning and signals, log output, command line parsing (clap).
