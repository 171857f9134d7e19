{
 "claims": [
  {
   "property": "C01",
   "status": "proved",
   "theorems": [
    "Verif.Tree.c01_forest",
    "Verif.Tree.c01_contents",
    "Verif.Tree.c01_root_xor_child"
   ],
   "note": "Any linear order of timestamps, any activity sequence accepted by the builder."
  },
  {
   "property": "C02",
   "status": "proved",
   "theorems": [
    "Verif.Tree.c02_allChildren_descendants",
    "Verif.Tree.c02_parent_inverse",
    "Verif.Tree.c02_roots_no_parent"
   ],
   "note": ""
  },
  {
   "property": "C03",
   "status": "proved",
   "theorems": [
    "Verif.Tree.c03_nested",
    "Verif.Tree.c03_siblings_disjoint"
   ],
   "note": ""
  },
  {
   "property": "C04",
   "status": "proved",
   "theorems": [
    "Verif.Tree.c04_accept_iff",
    "Verif.Tree.c04_error"
   ],
   "note": ""
  },
  {
   "property": "C05",
   "status": "proved",
   "theorems": [
    "Verif.Tree.c05_self_duration",
    "Verif.Tree.c05_subtree_sum",
    "Verif.Tree.c05_root_sum",
    "Verif.Tree.c05_self_nonneg",
    "Verif.Tree.c05_float_exact",
    "Verif.Binary64.c05_binary64",
    "Verif.Tree.c05_f64"
   ],
   "note": "c05_self_duration holds for any arithmetic; the sum identities are for exact ordered groups; c05_float_exact transfers them to floating point for whole microseconds (any rounding that keeps integers up to 2^53), c05_binary64 is the instance for IEEE binary64, round to nearest even, c05_f64 has both times and durations in binary64; non-negativity needs non-negative input durations."
  },
  {
   "property": "C06",
   "status": "proved",
   "theorems": [
    "Verif.Tree.c06_no_panic",
    "Verif.Tree.c06_accessors_no_panic"
   ],
   "note": ""
  },
  {
   "property": "C07",
   "status": "proved",
   "theorems": [
    "Verif.Trace.c07_activities_kept",
    "Verif.Trace.c07_globals_kept",
    "Verif.Trace.c07_nothing_dropped"
   ],
   "note": "Stated over parsed JSON values; reading the bytes of the file is the subject of C74 and C79."
  },
  {
   "property": "C08",
   "status": "proved",
   "theorems": [
    "Verif.Trace.c08_one_pid",
    "Verif.Trace.c08_inconsistent",
    "Verif.Trace.c08_detected"
   ],
   "note": ""
  },
  {
   "property": "C09",
   "status": "proved",
   "theorems": [
    "Verif.Trace.c09_unique_names",
    "Verif.Trace.c09_missing_process_name",
    "Verif.Trace.c09_duplicate_process",
    "Verif.Trace.c09_duplicate_thread",
    "Verif.Trace.c09_duplicate_statistic",
    "Verif.Trace.c09_no_process_name"
   ],
   "note": ""
  },
  {
   "property": "C10",
   "status": "proved",
   "theorems": [
    "Verif.Trace.c10_panic_iff",
    "Verif.Trace.c10_no_panic_when",
    "Verif.Trace.c10_empty_events_violated",
    "Verif.Trace.c10_empty_detail_violated"
   ],
   "note": "Exact set of panicking documents; the ideal claim (no panic at all) is false of the code and both violations are exhibited."
  },
  {
   "property": "C11",
   "status": "proved",
   "theorems": [
    "Verif.Trace.c11_detail_iff",
    "Verif.Trace.c11_known_accept_iff",
    "Verif.Trace.c11_unknown_accept_iff",
    "Verif.Trace.c11_order_independent",
    "Verif.Trace.c11_unexpected_keys"
   ],
   "note": "Empty detail strings are excluded where the code panics (C10)."
  },
  {
   "property": "C12",
   "status": "proved",
   "theorems": [
    "Verif.Trace.c12_accept_iff",
    "Verif.Trace.c12_no_args",
    "Verif.Trace.c12_args_order_independent",
    "Verif.Trace.c12_unexpected_keys"
   ],
   "note": ""
  },
  {
   "property": "C13",
   "status": "proved",
   "theorems": [
    "Verif.Trace.c13_process_name_iff",
    "Verif.Trace.c13_thread_name_iff",
    "Verif.Trace.c13_categories_empty"
   ],
   "note": ""
  },
  {
   "property": "C14",
   "status": "proved",
   "theorems": [
    "Verif.Intern.c14_intern_history",
    "Verif.Intern.c14_keys_stay_valid",
    "Verif.Intern.c14_panics_iff_exhausted"
   ],
   "note": "Hash table modelled as the list of its keys; panics exactly on key space exhaustion."
  },
  {
   "property": "C15",
   "status": "proved",
   "theorems": [
    "Verif.Intern.c15_roundtrip",
    "Verif.Intern.c15_injective",
    "Verif.Intern.c15_exhausted_iff",
    "Verif.Intern.c15_exhausted_iff_bits"
   ],
   "note": "All word widths, LEN_BITS and inner key capacities."
  },
  {
   "property": "C16",
   "status": "proved",
   "theorems": [
    "Verif.Intern.c16_sequences_history",
    "Verif.Intern.c16_counters",
    "Verif.Intern.c16_abandoned_leave_no_trace",
    "Verif.Intern.c16_panics_iff"
   ],
   "note": "Includes the exact panic condition (an entry may panic on an already interned sequence when the key space is nearly exhausted)."
  },
  {
   "property": "C17",
   "status": "proved",
   "theorems": [
    "Verif.Intern.c17_entry_is_private_stack",
    "Verif.Intern.c17_abandon_restores",
    "Verif.Intern.c17_pop_empty"
   ],
   "note": ""
  },
  {
   "property": "C18",
   "status": "proved",
   "theorems": [
    "Verif.Intern.c18_components",
    "Verif.Intern.c18_keys_iff",
    "Verif.Intern.c18_relative_rejected",
    "Verif.Intern.c18_len",
    "Verif.Intern.c18_display",
    "Verif.Intern.c18_normalized_names",
    "Verif.Intern.c18_plain_path",
    "Verif.Intern.c18_idempotent",
    "Verif.Intern.c18_succeeds_iff",
    "Verif.Intern.c18_sizes",
    "Verif.Intern.c18_unique"
   ],
   "note": "Unix std::path::components and lasso Rodeo trusted."
  },
  {
   "property": "C19",
   "status": "proved",
   "theorems": [
    "Verif.Intern.c19_entries_do_not_interfere",
    "Verif.Intern.c19_invalid_iff_not_alive",
    "Verif.Intern.c19_succeeds_iff",
    "Verif.Intern.c19_total"
   ],
   "note": ""
  },
  {
   "property": "C20",
   "status": "proved",
   "theorems": [
    "Verif.Measure.c20_stop_flags",
    "Verif.Measure.c20_enumeration",
    "Verif.Measure.c20_enumeration_ok",
    "Verif.Measure.c20_enumeration_violated",
    "Verif.Measure.c20_violated_at_64"
   ],
   "note": "All worker counts and stop sequences; the enumeration is characterised exactly, including its defect."
  },
  {
   "property": "C21",
   "status": "proved",
   "theorems": [
    "Verif.Measure.c21_futex",
    "Verif.Measure.c21_misuse"
   ],
   "note": "All numbers of pushes, including wrap-around."
  },
  {
   "property": "C22",
   "status": "proved",
   "theorems": [
    "Verif.Measure.c22_work_is_noticed",
    "Verif.Measure.c22_covering_worker_does_not_sleep",
    "Verif.Measure.c22_no_deadlock",
    "Verif.Measure.c22_ready_worker_steps",
    "Verif.Measure.c22_no_sleeper_after_close",
    "Verif.Measure.run_ok",
    "Verif.Measure.run_killed"
   ],
   "note": "Interleaving model of main thread and n workers, sequentially consistent; n >= 1, n + 3 < 2^32. run_ok / run_killed: concrete runs."
  },
  {
   "property": "C23",
   "status": "proved",
   "theorems": [
    "Verif.Measure.c23_jobs_conserved",
    "Verif.Measure.c23_exactly_one_place"
   ],
   "note": "Invariant over all schedules."
  },
  {
   "property": "C24",
   "status": "proved",
   "theorems": [
    "Verif.Measure.c24_ok_is_complete",
    "Verif.Measure.c24_rows_always_valid"
   ],
   "note": "Invariant over all schedules."
  },
  {
   "property": "C25",
   "status": "proved",
   "theorems": [
    "Verif.Measure.c25_oom",
    "Verif.Measure.c25_every_update",
    "Verif.Measure.c25_oom_below_word",
    "Verif.Measure.c25_least_number",
    "Verif.Measure.c25_threshold",
    "Verif.Measure.c25_every_update_below_word",
    "Verif.Measure.c25_violated"
   ],
   "note": "All worker counts and histories of readings; below 64 workers the handler never fails (the _below_word corollaries)."
  },
  {
   "property": "C26",
   "status": "proved",
   "theorems": [
    "Verif.Measure.c26_refresh",
    "Verif.Measure.c26_root_stable",
    "Verif.Measure.c26_memory_kill",
    "Verif.Measure.c26_cycle_diverges"
   ],
   "note": "All tables with distinct pids whose root is not its own descendant."
  },
  {
   "property": "C27",
   "status": "proved",
   "theorems": [
    "Verif.Build.c27_from_entries",
    "Verif.Build.c27_push_clear"
   ],
   "note": "Hash map as an association list up to path equality."
  },
  {
   "property": "C28",
   "status": "proved",
   "theorems": [
    "Verif.Build.c28_freshness",
    "Verif.Build.c28_order_irrelevant",
    "Verif.Build.c28_profile",
    "Verif.Build.c28_derived"
   ],
   "note": "All file systems (any mtime or error per path) and all databases."
  },
  {
   "property": "C29",
   "status": "proved",
   "theorems": [
    "Verif.Build.c29_output",
    "Verif.Build.c29_is_join"
   ],
   "note": "Words of the command line are an input (splitting a command into words is the subject of C75); paths as component lists."
  },
  {
   "property": "C30",
   "status": "proved",
   "theorems": [
    "Verif.Build.c30_wall_time",
    "Verif.Build.c30_whole_seconds",
    "Verif.Build.c30_written_times_valid",
    "Verif.Build.c30_written_accuracy",
    "Verif.Build.c30_not_truncation"
   ],
   "note": "All f32 values; write/read accuracy for all durations."
  },
  {
   "property": "C31",
   "status": "proved",
   "theorems": [
    "Verif.Display.displayString_spec",
    "Verif.Display.displayString_edges"
   ],
   "note": "Widths are an arbitrary function on grapheme clusters, additive over text."
  },
  {
   "property": "C32",
   "status": "proved",
   "theorems": [
    "Verif.Display.truncatePath_spec",
    "Verif.Display.truncatePath_root_file_exact",
    "Verif.Display.truncatePath_empty"
   ],
   "note": "truncatePath_root_file_exact shows the excluded exact fit really fails; truncatePath_empty: the empty path panics."
  },
  {
   "property": "C33",
   "status": "proved",
   "theorems": [
    "Verif.Display.Duration.displayDuration_spec",
    "Verif.Display.DurationFloat.displayDurationF_spec",
    "Verif.Display.DurationFloat.displayDurationF_huge",
    "Verif.Display.DurationFloat.displayDurationF_negative"
   ],
   "note": "displayDuration_spec is over exact rationals; displayDurationF_spec over IEEE binary64 (Tree/Binary64), every operation and constant rounded to nearest even. Infinities are not modelled."
  },
  {
   "property": "C34",
   "status": "proved",
   "theorems": [
    "Verif.Display.metadata_fits",
    "Verif.Display.metadata_content"
   ],
   "note": "Formatting of pid, thread name and date is abstract text."
  },
  {
   "property": "C35",
   "status": "proved",
   "theorems": [
    "Verif.Display.displayActivityDesc_single",
    "Verif.Display.displayActivityDesc_multi",
    "Verif.Display.displayActivityDesc_argument"
   ],
   "note": "All names, arguments and budgets below 65536 columns; glyph widths abstract."
  },
  {
   "property": "C36",
   "status": "proved",
   "theorems": [
    "Verif.Display.boundedDisplay_spec"
   ],
   "note": ""
  },
  {
   "property": "C37",
   "status": "proved",
   "theorems": [
    "Verif.Cpp.advertised_depth_suffices",
    "Verif.Cpp.advertised_depth_insufficient",
    "Verif.Cpp.bounded_display_complete"
   ],
   "note": "Proved for the entities the restated property quantifies over; a counterexample shows why the two forms are excluded."
  },
  {
   "property": "C38",
   "status": "proved",
   "theorems": [
    "Verif.Cpp.display_restores_budget",
    "Verif.Cpp.entity_display_restores_budget"
   ],
   "note": ""
  },
  {
   "property": "C39",
   "status": "proved",
   "theorems": [
    "Verif.Analysis.hottest_spec",
    "Verif.Analysis.hottest_exists",
    "Verif.Analysis.hottest_all"
   ],
   "note": ""
  },
  {
   "property": "C40",
   "status": "proved",
   "theorems": [
    "Verif.Analysis.breakdown_spec",
    "Verif.Analysis.breakdown_exists",
    "Verif.Analysis.breakdown_total",
    "Verif.Analysis.FloatBreakdown.c40_binary64"
   ],
   "note": "NaN totals excluded by hypothesis in breakdown_spec, as the restated property says. c40_binary64: IEEE binary64, from c40_float for any rounding that keeps integers up to 2^53."
  },
  {
   "property": "C41",
   "status": "proved",
   "theorems": [
    "Verif.Tui.Proc.c41_replies_are_fresh",
    "Verif.Tui.Proc.c41_channels_in_step",
    "Verif.Tui.Proc.c41_never_stuck",
    "Verif.Tui.Proc.c41_describe_no_panic",
    "Verif.Tui.Proc.c41_panics_without_trace",
    "Verif.Tui.Proc.c41_descriptions"
   ],
   "note": "Trace and parsers abstract (Engine), required to obey the interner laws proved for C14; a concrete engine built on the interner model satisfies them."
  },
  {
   "property": "C42",
   "status": "proved",
   "theorems": [
    "Verif.Tui.Stack.c42_in_sync",
    "Verif.Tui.Stack.c42_no_panic",
    "Verif.Tui.Stack.c42_empty_trace_panics",
    "Verif.Tui.Stack.c42_race"
   ],
   "note": "Invariant over all histories; the race and the empty trace are proved defects."
  },
  {
   "property": "C43",
   "status": "proved",
   "theorems": [
    "Verif.Tui.Trace.c43_failure_restores",
    "Verif.Tui.Trace.c43_unchanged_without_stale_backup",
    "Verif.Tui.Trace.c43_success",
    "Verif.Tui.Trace.c43_verdict",
    "Verif.Tui.Trace.c43_no_data_loss",
    "Verif.Tui.Trace.c43_stale_backup_appears",
    "Verif.Tui.Trace.c43_orphan_clang_destroys",
    "Verif.Tui.Trace.c43_late_success_discarded",
    "Verif.Tui.bakName_eq_self"
   ],
   "note": "Proved for every interleaving of UI, waiting thread and clang, every partial output and every I/O failure; the stale-backup exception of the statement is characterised exactly and exhibited."
  },
  {
   "property": "C44",
   "status": "proved",
   "theorems": [
    "Verif.Tui.Build.c44_uninterrupted",
    "Verif.Tui.Build.c44_unchanged_without_stale_backup",
    "Verif.Tui.Build.c44_interrupted",
    "Verif.Tui.Build.c44_success_noticed",
    "Verif.Tui.Build.c44_no_data_loss",
    "Verif.Tui.Build.c44_late_only_on_abort",
    "Verif.Tui.Build.c44_quick_abort_destroys",
    "Verif.Tui.Build.c44_late_success_shows_old",
    "Verif.Tui.Build.c44_stale_backup_appears",
    "Verif.Tui.Build.c44_bak_profile_destroyed"
   ],
   "note": "Proved for every interleaving of UI and measurement thread; the violations (stale backup, profile named .bak, abort before File::create) are exhibited as runs of the model."
  },
  {
   "property": "C45",
   "status": "proved",
   "theorems": [
    "Verif.Tui.Prompt.c45_trace_measure_iff",
    "Verif.Tui.Prompt.c45_build_measure_iff",
    "Verif.Tui.Prompt.c45_default_reuses",
    "Verif.Tui.Prompt.c45_decline",
    "Verif.Tui.Prompt.c45_profile_available",
    "Verif.Tui.Prompt.c45_no_question_iff"
   ],
   "note": ""
  },
  {
   "property": "C46",
   "status": "proved",
   "theorems": [
    "Verif.Cpp.legacy_spec",
    "Verif.Cpp.legacy_order_insensitive",
    "Verif.Cpp.denotes_unique",
    "Verif.Cpp.legacy_no_panic",
    "Verif.Cpp.legacy_display_parses"
   ],
   "note": "order-insensitivity against a table of C spellings; unreachable arm unreachable; display parses back"
  },
  {
   "property": "C47",
   "status": "proved",
   "theorems": [
    "Verif.Cpp.binary_panics_iff",
    "Verif.Cpp.binary_sound",
    "Verif.Cpp.binary_complete",
    "Verif.Cpp.binary_panics_exist"
   ],
   "note": "Exact panic characterisation, soundness and completeness."
  },
  {
   "property": "C48",
   "status": "proved",
   "theorems": [
    "Verif.Cpp.cv_spec",
    "Verif.Cpp.cv_total",
    "Verif.Cpp.cv_display_parses",
    "Verif.Cpp.reference_spec",
    "Verif.Cpp.reference_display_parses"
   ],
   "note": "all keyword sequences, blanks, repetitions"
  },
  {
   "property": "C49",
   "status": "proved",
   "theorems": [
    "Verif.Cpp.c49_parsers_end",
    "Verif.Cpp.c49_entity",
    "Verif.Cpp.c49_empty",
    "Verif.Cpp.grammar_fixpoint",
    "Verif.Cpp.grammar_unique"
   ],
   "note": "Full recursive grammar modelled (types, values, declarators, names, scopes, operators, anonymous entities, template parameters, attributes); the model's fuel never runs out, so the result does not depend on it."
  },
  {
   "property": "C50",
   "status": "proved",
   "theorems": [
    "Verif.Cpp.c50_safe",
    "Verif.Cpp.c50_relative_lambda_panics",
    "Verif.Cpp.c50_long_path_panics",
    "Verif.Cpp.c50_other_panics",
    "Verif.Cpp.c50_shift_panics",
    "Verif.Cpp.c50_refuted"
   ],
   "note": "parse_entity can panic: the unconditional no-panic property is refuted, for a whole family of inputs; a sufficient condition for not panicking is proved for every input."
  },
  {
   "property": "C51",
   "status": "proved",
   "theorems": [
    "Verif.Trace.c51_value_iff",
    "Verif.Trace.c51_panic_iff",
    "Verif.Trace.c51_detail_present",
    "Verif.Trace.c51_no_panic_when",
    "Verif.Trace.c51_symbol_kept",
    "Verif.Trace.c51_relative_path_violated"
   ],
   "note": "For any entity parser and any demangler. The ideal claim (no panic) is false of the code for relative paths: violation exhibited."
  },
  {
   "property": "C52",
   "status": "proved",
   "theorems": [
    "Verif.Display.truncatePath_single_refuted"
   ],
   "note": "Exact wrong output for every single-component path; refutes the behaviour users expect."
  },
  {
   "property": "C53",
   "status": "proved",
   "theorems": [
    "Verif.Cpp.advertised_depth_succ_suffices",
    "Verif.Cpp.advertised_depth_insufficient"
   ],
   "note": ""
  },
  {
   "property": "C54",
   "status": "proved",
   "theorems": [
    "Verif.Analysis.typeProfile_spec"
   ],
   "note": "Durations are exact (ordered field)."
  },
  {
   "property": "C55",
   "status": "proved",
   "theorems": [
    "Verif.Analysis.displayActivity_spec",
    "Verif.Analysis.flatProfile_spec"
   ],
   "note": "The name must be at least one column wide; the profiling numbers are an arbitrary text."
  },
  {
   "property": "C56",
   "status": "proved",
   "theorems": [
    "Verif.Analysis.hierarchical_profile",
    "Verif.Analysis.hierTree_no_panic",
    "Verif.Analysis.hierTree_shows",
    "Verif.Analysis.hierTree_fits",
    "Verif.Analysis.hierTree_kids"
   ],
   "note": "termtree's rendering is modelled as two columns of indentation per level."
  },
  {
   "property": "C57",
   "status": "proved",
   "theorems": [
    "Verif.Tui.Prompt.c57_age_text",
    "Verif.Tui.Prompt.c57_future_file"
   ],
   "note": ""
  },
  {
   "property": "C58",
   "status": "proved",
   "theorems": [
    "Verif.Trace.c58_accept_iff",
    "Verif.Trace.c58_beginning_of_time"
   ],
   "note": "Stated over parsed JSON values (reading the bytes is the subject of C74 and C79); object keys are assumed distinct, as in a HashMap."
  },
  {
   "property": "C59",
   "status": "proved",
   "theorems": [
    "Verif.Tui.Stack.c59_units",
    "Verif.Tui.Stack.c59_cycle"
   ],
   "note": "All reachable states."
  },
  {
   "property": "C60",
   "status": "proved",
   "theorems": [
    "Verif.Tui.Stack.c60_contents",
    "Verif.Tui.Stack.c60_path",
    "Verif.Tui.Stack.c60_toggle",
    "Verif.Tui.Stack.c60_toggle_twice",
    "Verif.Tui.Stack.c60_zoom"
   ],
   "note": "All reachable states."
  },
  {
   "property": "C61",
   "status": "proved",
   "theorems": [
    "Verif.Tui.Stack.c61_waiting",
    "Verif.Tui.Stack.c61_esc_profile",
    "Verif.Tui.Stack.c61_esc_other",
    "Verif.Tui.Stack.c61_build_stays",
    "Verif.Tui.Stack.c61_jump",
    "Verif.Tui.Stack.c61_zoom_esc",
    "Verif.Tui.Stack.c61_abort",
    "Verif.Tui.Stack.c61_aborted_load",
    "Verif.Tui.Stack.c61_stays_aborted",
    "Verif.Tui.Stack.c61_blank_screen"
   ],
   "note": "All reachable states; blank screen proved reachable."
  },
  {
   "property": "C62",
   "status": "proved",
   "theorems": [
    "Verif.Tui.Stack.c62_one_dialog",
    "Verif.Tui.Stack.c62_background",
    "Verif.Tui.Stack.c62_message_lost"
   ],
   "note": "All reachable states; lost message proved reachable."
  },
  {
   "property": "C63",
   "status": "proved",
   "theorems": [
    "Verif.Cpp.c63_reads",
    "Verif.Cpp.c63_unambiguous",
    "Verif.Cpp.c63_ellipsis_last",
    "Verif.Cpp.c63_new"
   ],
   "note": "Specification in Cpp/Spelling.lean, separate from the parser, indexed by a condition K on the characters of character literals (any for C63, PlainChar for C64). Expressions: MayTrail, NameFollow, notType and the conditions of hUnary, trailBinary and trailTernary leave out those that the parser reads as something else. new expressions are specified apart (NewText) and read inside decltype, with placement arguments and any type, or with an initializer that starts with a number after a type without declarator; other initializers look like function parameters. Examples: Cpp/SpellingExample.lean and beside c63_new."
  },
  {
   "property": "C64",
   "status": "proved",
   "theorems": [
    "Verif.Cpp.c64_round_trip",
    "Verif.Cpp.c64_injective",
    "Verif.Cpp.c64_canonical",
    "Verif.Cpp.c64_new"
   ],
   "note": "The text displayed is derived from the display model of C37/C38 (disp_full); the specification of spellings is that of C63. Outside the fragment the round trip fails: see C65."
  },
  {
   "property": "C65",
   "status": "proved",
   "theorems": [
    "Verif.Cpp.c65_ellipsis",
    "Verif.Cpp.c65_ambiguous",
    "Verif.Cpp.c65_newton",
    "Verif.Cpp.c65_control",
    "Verif.Cpp.c65_postfix",
    "Verif.Cpp.c65_ampersand",
    "Verif.Cpp.c65_cast",
    "Verif.Cpp.c65_new_anonymous",
    "Verif.Cpp.c65_rejected"
   ],
   "note": "Defects of the code, proved about the model by kernel computation on the named texts and for every sufficient budget."
  },
  {
   "property": "C66",
   "status": "proved",
   "theorems": [
    "Verif.Measure.Poll.c66_deadline_not_past",
    "Verif.Measure.Poll.c66_no_drift",
    "Verif.Measure.Poll.c66_backs_off",
    "Verif.Measure.Poll.c66_worker_polls_regularly",
    "Verif.Measure.Poll.c66_results_postpone_supervision",
    "Verif.Measure.Poll.c66_supervision_can_starve",
    "Verif.Measure.Poll.c66_interval_at_least_initial",
    "Verif.Measure.Poll.c66_interval_shrinks_violated"
   ],
   "note": "f64 rounding: any function that keeps 0 with relative error at most 2^-53 above 2^-100, which binary64 is (rounding_binary64; the defect is exhibited in binary64); instants less than 292 years apart"
  },
  {
   "property": "C67",
   "status": "proved",
   "theorems": [
    "Verif.Tui.Sorting.c67_sorted_as_chosen",
    "Verif.Tui.Sorting.c67_sorted_by_chosen",
    "Verif.Tui.Sorting.c67_marked",
    "Verif.Tui.Sorting.c67_select_again_flips",
    "Verif.Tui.Sorting.c67_rows_kept",
    "Verif.Tui.Sorting.c67_description_order_violated"
   ],
   "note": "Model Tui/Sorting: stack of tables, table widget from its documentation. Defect exhibited by c67_description_order_violated."
  },
  {
   "property": "C68",
   "status": "proved",
   "theorems": [
    "Verif.Display.Columns.c68_durations_fit",
    "Verif.Display.Columns.c68_profile_fits",
    "Verif.Display.Columns.c68_build_profile_fits",
    "Verif.Display.Columns.c68_footer_fits"
   ],
   "note": "Exact criteria."
  },
  {
   "property": "C69",
   "status": "proved",
   "theorems": [
    "Verif.Build.ProfileTable.c69_table_works",
    "Verif.Build.ProfileTable.c69_measured_profile_works",
    "Verif.Build.ProfileTable.c69_time_order",
    "Verif.Build.ProfileTable.c69_other_orders",
    "Verif.Build.ProfileTable.c69_missing_time_panics",
    "Verif.Build.ProfileTable.c69_nan_panics"
   ],
   "note": "Exact criterion; the f32 model is that of C30."
  },
  {
   "property": "C70",
   "status": "proved",
   "theorems": [
    "Verif.Build.Clang.c70_accepted",
    "Verif.Build.Clang.c70_ancient",
    "Verif.Build.Clang.c70_unexpected",
    "Verif.Build.Clang.c70_other_errors",
    "Verif.Build.Clang.c70_usual"
   ],
   "note": "UTF-8 decoding and the exact class \\d are parameters; the regular expression engine is modelled by leftmost search."
  },
  {
   "property": "C71",
   "status": "proved",
   "theorems": [
    "Verif.Measure.Job.c71_success",
    "Verif.Measure.Job.c71_killed",
    "Verif.Measure.Job.c71_killed_conv",
    "Verif.Measure.Job.c71_running",
    "Verif.Measure.Job.c71_not_started",
    "Verif.Measure.Job.c71_not_utf8_panics"
   ],
   "note": "Process tables are assumed to have unique pids and no process that is its own ancestor (C26 shows refresh diverges otherwise)."
  },
  {
   "property": "C72",
   "status": "proved",
   "theorems": [
    "Verif.Measure.Job.c72_can_end",
    "Verif.Measure.Job.c72_too_much_output_never_ends",
    "Verif.Measure.Job.c72_small_output_progress",
    "Verif.Measure.Job.c72_left_decreases"
   ],
   "note": "Operating system pipes modelled as bounded byte buffers with blocking writes."
  },
  {
   "property": "C73",
   "status": "proved",
   "theorems": [
    "Verif.Measure.c73_bounded",
    "Verif.Measure.c73_not_stuck",
    "Verif.Measure.c73_can_end"
   ],
   "note": "Ranking function over the whole protocol state (workers, queue, channel, main thread, stop flags); a job is one start and one end step in this protocol (what a single job does is C71/C72)."
  },
  {
   "property": "C74",
   "status": "proved",
   "theorems": [
    "Verif.Trace.Ctf.c74_reads",
    "Verif.Trace.Ctf.c74_unknown_ignored",
    "Verif.Trace.Ctf.c74_key_order",
    "Verif.Trace.Ctf.c74_map",
    "Verif.Trace.Ctf.c74_detail",
    "Verif.Trace.Ctf.c74_accept_iff",
    "Verif.Trace.Ctf.c74_panic_iff",
    "Verif.Trace.Ctf.c74_one_bad_event",
    "Verif.Trace.Ctf.c74_other_phase",
    "Verif.Trace.Ctf.c74_twice",
    "Verif.Trace.Ctf.c74_activities",
    "Verif.Trace.Ctf.c74_origin",
    "Verif.Trace.Ctf.c74_stack_order_violated",
    "Verif.Trace.Ctf.c74_malformed_iff"
   ],
   "note": "What serde 1.0 derives (tags, flatten, untagged, defaults, duplicate detection) is modelled from its documented behaviour; JSON text itself is C79."
  },
  {
   "property": "C75",
   "status": "proved",
   "theorems": [
    "Verif.Build.Shlex.c75_words",
    "Verif.Build.Shlex.c75_unclosed",
    "Verif.Build.Shlex.c75_every_text",
    "Verif.Build.Shlex.c75_quoted",
    "Verif.Build.c75_database_iff",
    "Verif.Build.c75_lookup",
    "Verif.Build.c75_unknown_key",
    "Verif.Build.c75_commands",
    "Verif.Build.c75_no_program"
   ],
   "note": "shlex 1.3.0 and the code derived by serde are modelled from their sources and documentation, on characters and JSON values; JSON text is C79."
  },
  {
   "property": "C76",
   "status": "proved",
   "theorems": [
    "Verif.Build.c76_same_file",
    "Verif.Build.c76_found",
    "Verif.Build.c76_selected_iff",
    "Verif.Build.c76_relative_violated",
    "Verif.Build.c76_link_violated"
   ],
   "note": "pathdiff 0.2.3 and realpath are modelled; permissions are not. Two proved limits: links in database paths, relative file paths."
  },
  {
   "property": "C77",
   "status": "proved",
   "theorems": [
    "Verif.Tui.Wizard.c77_trace_place",
    "Verif.Tui.Wizard.c77_given_output",
    "Verif.Tui.Wizard.c77_measure_iff",
    "Verif.Tui.Wizard.c77_load",
    "Verif.Tui.Wizard.c77_unit_to_trace",
    "Verif.Tui.Wizard.c77_dialogs"
   ],
   "note": "Composition of C76, C29, C28, C45 and C75. What clang writes (extension replaced by json) is a specification; file names with only a leading dot are not covered by it."
  },
  {
   "property": "C78",
   "status": "proved",
   "theorems": [
    "Verif.Build.Csv.c78_records",
    "Verif.Build.Csv.c78_records_roundtrip",
    "Verif.Build.Csv.c78_records_prefix",
    "Verif.Build.ProfileCsv.c78_load_iff",
    "Verif.Build.ProfileCsv.c78_roundtrip",
    "Verif.Build.ProfileCsv.c78_prefix",
    "Verif.Build.ProfileCsv.c78_cut_time_violated",
    "Verif.Build.FloatText.c78_times",
    "Verif.Build.FloatText.c78_file",
    "Verif.Build.FloatText.c78_rewrite"
   ],
   "note": "csv 1.3.1 and csv-core 0.1.11 are modelled from their source, f32 texts as ryu 1.0.18 writes and f32::from_str reads them (c78_times: all f32 values read back); paths are valid UTF-8. One proved limit: cut times."
  },
  {
   "property": "C79",
   "status": "proved",
   "theorems": [
    "Verif.Trace.Ctf.Text.c79_reads",
    "Verif.Trace.Ctf.Text.c79_unambiguous",
    "Verif.Trace.Ctf.Text.c79_cut",
    "Verif.Trace.Ctf.Text.c79_values",
    "Verif.Trace.Ctf.Text.c79_integers",
    "Verif.Build.JsonFiles.c79_trace_iff",
    "Verif.Build.JsonFiles.c79_trace_panic_iff",
    "Verif.Build.JsonFiles.c79_trace_cut",
    "Verif.Build.JsonFiles.c79_database_iff",
    "Verif.Build.JsonFiles.c79_database_cut"
   ],
   "note": "serde_json 1.0.133 is modelled from its source as known and RFC 8259; decimal-to-f64 conversion is an arbitrary function of the number's text (that of serde_json: C94)."
  },
  {
   "property": "C80",
   "status": "proved",
   "theorems": [
    "Verif.Measure.Weak.c80_sleep",
    "Verif.Measure.Weak.c80_enough_awake",
    "Verif.Measure.Weak.c80_end",
    "Verif.Measure.Weak.c80_orderings"
   ],
   "note": "Memory: view machine (release/acquire, relaxed, fences). The crossbeam queue is a relaxed counter of pushed jobs plus an atomic set of taken ones; the futex system call compares with the latest value. The bound on pushes is that of C21 (ABA)."
  },
  {
   "property": "C81",
   "status": "proved",
   "theorems": [
    "Verif.Measure.WeakStop.c81_only_asked",
    "Verif.Measure.WeakStop.c81_latched",
    "Verif.Measure.WeakStop.c81_obeyed",
    "Verif.Measure.WeakStop.c81_stop_iff",
    "Verif.Measure.WeakStop.c81_visible",
    "Verif.Measure.WeakStop.c81_orderings"
   ],
   "note": "Same view machine as C80; words of any number of bits (64 in the code)."
  },
  {
   "property": "C82",
   "status": "proved",
   "theorems": [
    "Verif.Analysis.Stdio.c82_interface",
    "Verif.Analysis.Stdio.c82_columns",
    "Verif.Analysis.Stdio.c82_no_report",
    "Verif.Analysis.Stdio.c82_completes",
    "Verif.Analysis.Stdio.c82_report",
    "Verif.Analysis.Stdio.c82_several_roots",
    "Verif.Analysis.Stdio.c82_total"
   ],
   "note": "composition of C33-C36, C39, C40, C54-C56 with loading; exact arithmetic (floats: C87, C88); builds with overflow checks; termtree 0.4.1 drawing modelled"
  },
  {
   "property": "C83",
   "status": "proved",
   "theorems": [
    "Verif.Tui.TraceWait.c83_ends",
    "Verif.Tui.TraceWait.c83_meaning",
    "Verif.Tui.TraceWait.c83_abort",
    "Verif.Tui.TraceWait.c83_completed",
    "Verif.Tui.TraceWait.c83_message",
    "Verif.Tui.TraceWait.c83_screen",
    "Verif.Tui.TraceWait.c83_too_much_output"
   ],
   "note": "the loop as a relation over timed environments; file effects are C43"
  },
  {
   "property": "C84",
   "status": "proved",
   "theorems": [
    "Verif.Cpp.Simpp.c84_prints",
    "Verif.Cpp.Simpp.c84_ordinary",
    "Verif.Cpp.Simpp.c84_unknown"
   ],
   "note": "composition of the grammar (C49, C63), the display (C64, C37) and bounded_display (C36); found: <unknown> followed by a line feed is rejected"
  },
  {
   "property": "C85",
   "status": "proved",
   "theorems": [
    "Verif.Measure.Youngest.c85_counters",
    "Verif.Measure.Youngest.c85_victims",
    "Verif.Measure.Youngest.c85_jobless_first",
    "Verif.Measure.Youngest.c85_idle_victim"
   ],
   "note": "Composed with C25 (monitorUpdate, History). A worker may see its stop flag raised at any check, which only adds executions; counters are unbounded."
  },
  {
   "property": "C86",
   "status": "proved",
   "theorems": [
    "Verif.Analysis.Share.c86_percent",
    "Verif.Analysis.Share.c86_percent_tui",
    "Verif.Analysis.Share.c86_order",
    "Verif.Analysis.Share.c86_type_profile",
    "Verif.Analysis.Share.c86_threshold",
    "Verif.Analysis.Share.c86_whole_below_one",
    "Verif.Analysis.FloatBreakdown.c86_trace"
   ],
   "note": "IEEE binary64, round to nearest even, without overflow (the total is bounded)."
  },
  {
   "property": "C87",
   "status": "proved",
   "theorems": [
    "Verif.Analysis.WholeTrace.c87_self",
    "Verif.Analysis.WholeTrace.c87_total",
    "Verif.Analysis.WholeTrace.c87_breakdown",
    "Verif.Analysis.WholeTrace.c87_percent",
    "Verif.Analysis.WholeTrace.c87_file"
   ],
   "note": "f64 as Tree/F64: ℚ with every operation rounded to binary64, no infinities (the bound excludes them); the JSON text is read by the parser of C79, integers by rounding to binary64."
  },
  {
   "property": "C88",
   "status": "proved",
   "theorems": [
    "Verif.Analysis.HotTree.c88_hierarchical",
    "Verif.Analysis.HotTree.c88_flat",
    "Verif.Analysis.HotTree.c88_option"
   ],
   "note": "composition of C87, C86, C56, C39; names, arguments and the rest of the lines abstract as in C56."
  },
  {
   "property": "C89",
   "status": "proved",
   "theorems": [
    "Verif.Build.EndToEnd.c89_jobs",
    "Verif.Build.EndToEnd.c89_complete",
    "Verif.Build.EndToEnd.c89_interrupted",
    "Verif.Build.EndToEnd.c89_selected"
   ],
   "note": "Composition of the protocol (C24), database (C27), file (C78), times (C30), table (C69) and path (C76) models."
  },
  {
   "property": "C90",
   "status": "proved",
   "theorems": [
    "Verif.Trace.c90_taken_iff",
    "Verif.Trace.c90_exactly_one",
    "Verif.Trace.c90_recorded_iff",
    "Verif.Trace.c90_resolved"
   ],
   "note": "For any classes of uppercase and alphanumeric characters in which ( m _ < [ / are not uppercase (true of Unicode)."
  },
  {
   "property": "C91",
   "status": "proved",
   "theorems": [
    "Verif.Measure.c91_number",
    "Verif.Measure.c91_bounded",
    "Verif.Measure.c91_timed_alone"
   ],
   "note": "A compiler counts as running from the start of its process to the end of process_job; its child processes are C31's."
  },
  {
   "property": "C92",
   "status": "proved",
   "theorems": [
    "Verif.Cpp.Keys.c92_keys_iff",
    "Verif.Cpp.Keys.c92_reads",
    "Verif.Cpp.Keys.c92_only_exhaustion",
    "Verif.Cpp.Keys.c92_room",
    "Verif.Cpp.Keys.c92_call_limit",
    "Verif.Cpp.Keys.c92_parse_iff",
    "Verif.Cpp.Keys.c92_spellings"
   ],
   "note": "Cpp/Keys: the tables of EntityParser as interners of trees whose interned parts are replaced by keys; the order in which branches that are given up intern things is left arbitrary (any list of discarded entities before each parse); paths are interned by their normalized text (C18 covers PathInterner)"
  },
  {
   "property": "C93",
   "status": "proved",
   "theorems": [
    "Verif.Tree.c93_self_le_duration",
    "Verif.Tree.c93_self_error",
    "Verif.Tree.c93_subtree_error",
    "Verif.Tree.c93_total_error",
    "Verif.Analysis.WholeTrace.c93_breakdown",
    "Verif.Analysis.WholeTrace.c93_percent",
    "Verif.Analysis.WholeTrace.c93_document_self",
    "Verif.Analysis.WholeTrace.c93_document_profile",
    "Verif.Analysis.HotTree.c93_hierarchical",
    "Verif.Analysis.HotTree.c93_flat",
    "Verif.Analysis.HotTree.c93_hidden",
    "Verif.Analysis.HotTree.c93_types",
    "Verif.Analysis.HotTree.c93_order"
   ],
   "note": "In the tree theorems sums of the computed numbers are taken exactly; c93_breakdown and c93_percent are about the program's rounded sums. Times are finite binary64 numbers, ends are rounded sums as in the program, overflow to infinity (ends from 2^1024 microseconds) is not modelled; c93_percent, c93_hierarchical, c93_flat and c93_types assume that the trace lasts at least 1024 N 2^(k-53) microseconds."
  },
  {
   "property": "C94",
   "status": "proved",
   "theorems": [
    "Verif.Trace.Ctf.Text.Decimal.c94_exact",
    "Verif.Trace.Ctf.Text.Decimal.c94_whole",
    "Verif.Trace.Ctf.Text.Decimal.c94_error",
    "Verif.Trace.Ctf.Text.Decimal.c94_all",
    "Verif.Trace.Ctf.Text.Decimal.c94_refused"
   ],
   "note": "serde_json 1.0.133 is modelled from its known source (features float_roundtrip and arbitrary_precision off, as in Cargo.toml)."
  }
 ]
}