# Axioms of the theorems named in MANIFEST.json

Output of `#print axioms` (regenerate with `python3 tools/axioms.py`). Only the three axioms of Lean's standard library occur; the project declares none.

## C01
* `Verif.Tree.c01_forest`: propext, Classical.choice, Quot.sound
* `Verif.Tree.c01_contents`: propext, Classical.choice, Quot.sound
* `Verif.Tree.c01_root_xor_child`: propext, Classical.choice, Quot.sound

## C02
* `Verif.Tree.c02_allChildren_descendants`: propext, Classical.choice, Quot.sound
* `Verif.Tree.c02_parent_inverse`: propext, Classical.choice, Quot.sound
* `Verif.Tree.c02_roots_no_parent`: propext, Classical.choice, Quot.sound

## C03
* `Verif.Tree.c03_nested`: propext, Classical.choice, Quot.sound
* `Verif.Tree.c03_siblings_disjoint`: propext, Classical.choice, Quot.sound

## C04
* `Verif.Tree.c04_accept_iff`: propext, Classical.choice, Quot.sound
* `Verif.Tree.c04_error`: propext, Classical.choice, Quot.sound

## C05
* `Verif.Tree.c05_self_duration`: propext, Classical.choice, Quot.sound
* `Verif.Tree.c05_subtree_sum`: propext, Classical.choice, Quot.sound
* `Verif.Tree.c05_root_sum`: propext, Classical.choice, Quot.sound
* `Verif.Tree.c05_self_nonneg`: propext, Classical.choice, Quot.sound
* `Verif.Tree.c05_float_exact`: propext, Classical.choice, Quot.sound
* `Verif.Binary64.c05_binary64`: propext, Classical.choice, Quot.sound
* `Verif.Tree.c05_f64`: propext, Classical.choice, Quot.sound

## C06
* `Verif.Tree.c06_no_panic`: propext, Classical.choice, Quot.sound
* `Verif.Tree.c06_accessors_no_panic`: propext, Classical.choice, Quot.sound

## C07
* `Verif.Trace.c07_activities_kept`: propext, Classical.choice, Quot.sound
* `Verif.Trace.c07_globals_kept`: propext, Classical.choice, Quot.sound
* `Verif.Trace.c07_nothing_dropped`: propext, Classical.choice, Quot.sound

## C08
* `Verif.Trace.c08_one_pid`: propext, Classical.choice, Quot.sound
* `Verif.Trace.c08_inconsistent`: propext, Classical.choice, Quot.sound
* `Verif.Trace.c08_detected`: propext, Classical.choice, Quot.sound

## C09
* `Verif.Trace.c09_unique_names`: propext, Classical.choice, Quot.sound
* `Verif.Trace.c09_missing_process_name`: propext, Classical.choice, Quot.sound
* `Verif.Trace.c09_duplicate_process`: propext, Classical.choice, Quot.sound
* `Verif.Trace.c09_duplicate_thread`: propext, Classical.choice, Quot.sound
* `Verif.Trace.c09_duplicate_statistic`: propext, Classical.choice, Quot.sound
* `Verif.Trace.c09_no_process_name`: propext, Classical.choice, Quot.sound

## C10
* `Verif.Trace.c10_panic_iff`: propext, Classical.choice, Quot.sound
* `Verif.Trace.c10_no_panic_when`: propext, Classical.choice, Quot.sound
* `Verif.Trace.c10_empty_events_violated`: propext, Classical.choice, Quot.sound
* `Verif.Trace.c10_empty_detail_violated`: propext, Classical.choice, Quot.sound

## C11
* `Verif.Trace.c11_detail_iff`: propext
* `Verif.Trace.c11_known_accept_iff`: propext, Classical.choice, Quot.sound
* `Verif.Trace.c11_unknown_accept_iff`: propext, Classical.choice, Quot.sound
* `Verif.Trace.c11_order_independent`: propext, Classical.choice, Quot.sound
* `Verif.Trace.c11_unexpected_keys`: propext, Quot.sound

## C12
* `Verif.Trace.c12_accept_iff`: propext, Classical.choice, Quot.sound
* `Verif.Trace.c12_no_args`: propext, Classical.choice, Quot.sound
* `Verif.Trace.c12_args_order_independent`: propext, Classical.choice, Quot.sound
* `Verif.Trace.c12_unexpected_keys`: propext, Classical.choice, Quot.sound

## C13
* `Verif.Trace.c13_process_name_iff`: propext
* `Verif.Trace.c13_thread_name_iff`: propext
* `Verif.Trace.c13_categories_empty`: propext, Classical.choice, Quot.sound

## C14
* `Verif.Intern.c14_intern_history`: propext, Classical.choice, Quot.sound
* `Verif.Intern.c14_keys_stay_valid`: propext, Classical.choice, Quot.sound
* `Verif.Intern.c14_panics_iff_exhausted`: propext, Classical.choice, Quot.sound

## C15
* `Verif.Intern.c15_roundtrip`: propext, Classical.choice, Quot.sound
* `Verif.Intern.c15_injective`: propext, Classical.choice, Quot.sound
* `Verif.Intern.c15_exhausted_iff`: propext, Classical.choice, Quot.sound
* `Verif.Intern.c15_exhausted_iff_bits`: propext, Classical.choice, Quot.sound

## C16
* `Verif.Intern.c16_sequences_history`: propext, Classical.choice, Quot.sound
* `Verif.Intern.c16_counters`: propext, Classical.choice, Quot.sound
* `Verif.Intern.c16_abandoned_leave_no_trace`: propext, Classical.choice, Quot.sound
* `Verif.Intern.c16_panics_iff`: propext, Classical.choice, Quot.sound

## C17
* `Verif.Intern.c17_entry_is_private_stack`: propext, Classical.choice, Quot.sound
* `Verif.Intern.c17_abandon_restores`: propext, Classical.choice, Quot.sound
* `Verif.Intern.c17_pop_empty`: propext, Classical.choice, Quot.sound

## C18
* `Verif.Intern.c18_components`: propext, Classical.choice, Quot.sound
* `Verif.Intern.c18_keys_iff`: propext, Classical.choice, Quot.sound
* `Verif.Intern.c18_relative_rejected`: propext, Quot.sound
* `Verif.Intern.c18_len`: propext, Classical.choice, Quot.sound
* `Verif.Intern.c18_display`: propext
* `Verif.Intern.c18_normalized_names`: propext, Quot.sound
* `Verif.Intern.c18_plain_path`: propext, Quot.sound
* `Verif.Intern.c18_idempotent`: propext, Classical.choice, Quot.sound
* `Verif.Intern.c18_succeeds_iff`: propext, Classical.choice, Quot.sound
* `Verif.Intern.c18_sizes`: propext, Classical.choice, Quot.sound
* `Verif.Intern.c18_unique`: propext, Classical.choice, Quot.sound

## C19
* `Verif.Intern.c19_entries_do_not_interfere`: propext, Classical.choice, Quot.sound
* `Verif.Intern.c19_invalid_iff_not_alive`: propext, Quot.sound
* `Verif.Intern.c19_succeeds_iff`: propext, Classical.choice, Quot.sound
* `Verif.Intern.c19_total`: propext, Quot.sound

## C20
* `Verif.Measure.c20_stop_flags`: propext, Classical.choice, Quot.sound
* `Verif.Measure.c20_enumeration`: propext, Classical.choice, Quot.sound
* `Verif.Measure.c20_enumeration_ok`: propext, Classical.choice, Quot.sound
* `Verif.Measure.c20_enumeration_violated`: propext, Classical.choice, Quot.sound
* `Verif.Measure.c20_violated_at_64`: propext, Classical.choice, Quot.sound

## C21
* `Verif.Measure.c21_futex`: propext, Classical.choice, Quot.sound
* `Verif.Measure.c21_misuse`: propext, Classical.choice, Quot.sound

## C22
* `Verif.Measure.c22_work_is_noticed`: propext, Classical.choice, Quot.sound
* `Verif.Measure.c22_covering_worker_does_not_sleep`: propext, Classical.choice, Quot.sound
* `Verif.Measure.c22_no_deadlock`: propext, Classical.choice, Quot.sound
* `Verif.Measure.c22_ready_worker_steps`: propext, Quot.sound
* `Verif.Measure.c22_no_sleeper_after_close`: propext, Quot.sound
* `Verif.Measure.run_ok`: propext, Classical.choice, Quot.sound
* `Verif.Measure.run_killed`: propext, Classical.choice, Quot.sound

## C23
* `Verif.Measure.c23_jobs_conserved`: propext, Classical.choice, Quot.sound
* `Verif.Measure.c23_exactly_one_place`: propext, Classical.choice, Quot.sound

## C24
* `Verif.Measure.c24_ok_is_complete`: propext, Classical.choice, Quot.sound
* `Verif.Measure.c24_rows_always_valid`: propext, Classical.choice, Quot.sound

## C25
* `Verif.Measure.c25_oom`: propext, Classical.choice, Quot.sound
* `Verif.Measure.c25_every_update`: propext, Classical.choice, Quot.sound
* `Verif.Measure.c25_oom_below_word`: propext, Classical.choice, Quot.sound
* `Verif.Measure.c25_least_number`: propext, Quot.sound
* `Verif.Measure.c25_threshold`: propext, Classical.choice, Quot.sound
* `Verif.Measure.c25_every_update_below_word`: propext, Classical.choice, Quot.sound
* `Verif.Measure.c25_violated`: propext, Classical.choice, Quot.sound

## C26
* `Verif.Measure.c26_refresh`: propext, Classical.choice, Quot.sound
* `Verif.Measure.c26_root_stable`: propext
* `Verif.Measure.c26_memory_kill`: propext, Classical.choice, Quot.sound
* `Verif.Measure.c26_cycle_diverges`: propext, Classical.choice, Quot.sound

## C27
* `Verif.Build.c27_from_entries`: propext, Quot.sound
* `Verif.Build.c27_push_clear`: propext

## C28
* `Verif.Build.c28_freshness`: propext, Classical.choice, Quot.sound
* `Verif.Build.c28_order_irrelevant`: propext, Classical.choice, Quot.sound
* `Verif.Build.c28_profile`: propext, Classical.choice, Quot.sound
* `Verif.Build.c28_derived`: propext, Classical.choice, Quot.sound

## C29
* `Verif.Build.c29_output`: propext, Classical.choice, Quot.sound
* `Verif.Build.c29_is_join`: propext, Classical.choice, Quot.sound

## C30
* `Verif.Build.c30_wall_time`: propext, Classical.choice, Quot.sound
* `Verif.Build.c30_whole_seconds`: propext, Classical.choice, Quot.sound
* `Verif.Build.c30_written_times_valid`: propext, Classical.choice, Quot.sound
* `Verif.Build.c30_written_accuracy`: propext, Classical.choice, Quot.sound
* `Verif.Build.c30_not_truncation`: propext

## C31
* `Verif.Display.displayString_spec`: propext, Classical.choice, Quot.sound
* `Verif.Display.displayString_edges`: propext, Classical.choice, Quot.sound

## C32
* `Verif.Display.truncatePath_spec`: propext, Classical.choice, Quot.sound
* `Verif.Display.truncatePath_root_file_exact`: propext, Classical.choice, Quot.sound
* `Verif.Display.truncatePath_empty`: propext, Quot.sound

## C33
* `Verif.Display.Duration.displayDuration_spec`: propext, Classical.choice, Quot.sound
* `Verif.Display.DurationFloat.displayDurationF_spec`: propext, Classical.choice, Quot.sound
* `Verif.Display.DurationFloat.displayDurationF_huge`: propext, Classical.choice, Quot.sound
* `Verif.Display.DurationFloat.displayDurationF_negative`: propext, Classical.choice, Quot.sound

## C34
* `Verif.Display.metadata_fits`: propext, Classical.choice, Quot.sound
* `Verif.Display.metadata_content`: propext, Classical.choice, Quot.sound

## C35
* `Verif.Display.displayActivityDesc_single`: propext, Classical.choice, Quot.sound
* `Verif.Display.displayActivityDesc_multi`: propext, Classical.choice, Quot.sound
* `Verif.Display.displayActivityDesc_argument`: propext, Classical.choice, Quot.sound

## C36
* `Verif.Display.boundedDisplay_spec`: propext, Quot.sound

## C37
* `Verif.Cpp.advertised_depth_suffices`: propext, Classical.choice, Quot.sound
* `Verif.Cpp.advertised_depth_insufficient`: propext, Classical.choice, Quot.sound
* `Verif.Cpp.bounded_display_complete`: propext, Classical.choice, Quot.sound

## C38
* `Verif.Cpp.display_restores_budget`: propext, Classical.choice, Quot.sound
* `Verif.Cpp.entity_display_restores_budget`: propext, Classical.choice, Quot.sound

## C39
* `Verif.Analysis.hottest_spec`: propext, Classical.choice, Quot.sound
* `Verif.Analysis.hottest_exists`: propext, Classical.choice, Quot.sound
* `Verif.Analysis.hottest_all`: propext, Classical.choice, Quot.sound

## C40
* `Verif.Analysis.breakdown_spec`: propext, Classical.choice, Quot.sound
* `Verif.Analysis.breakdown_exists`: propext, Classical.choice, Quot.sound
* `Verif.Analysis.breakdown_total`: propext, Classical.choice, Quot.sound
* `Verif.Analysis.FloatBreakdown.c40_binary64`: propext, Classical.choice, Quot.sound

## C41
* `Verif.Tui.Proc.c41_replies_are_fresh`: propext, Classical.choice, Quot.sound
* `Verif.Tui.Proc.c41_channels_in_step`: propext, Classical.choice, Quot.sound
* `Verif.Tui.Proc.c41_never_stuck`: propext, Classical.choice, Quot.sound
* `Verif.Tui.Proc.c41_describe_no_panic`: propext, Classical.choice, Quot.sound
* `Verif.Tui.Proc.c41_panics_without_trace`: propext, Classical.choice, Quot.sound
* `Verif.Tui.Proc.c41_descriptions`: propext, Classical.choice, Quot.sound

## C42
* `Verif.Tui.Stack.c42_in_sync`: propext, Classical.choice, Quot.sound
* `Verif.Tui.Stack.c42_no_panic`: propext, Classical.choice, Quot.sound
* `Verif.Tui.Stack.c42_empty_trace_panics`: propext, Quot.sound
* `Verif.Tui.Stack.c42_race`: propext, Quot.sound

## C43
* `Verif.Tui.Trace.c43_failure_restores`: propext, Quot.sound
* `Verif.Tui.Trace.c43_unchanged_without_stale_backup`: propext, Quot.sound
* `Verif.Tui.Trace.c43_success`: propext, Quot.sound
* `Verif.Tui.Trace.c43_verdict`: propext, Quot.sound
* `Verif.Tui.Trace.c43_no_data_loss`: propext, Quot.sound
* `Verif.Tui.Trace.c43_stale_backup_appears`: propext
* `Verif.Tui.Trace.c43_orphan_clang_destroys`: propext
* `Verif.Tui.Trace.c43_late_success_discarded`: propext
* `Verif.Tui.bakName_eq_self`: propext, Classical.choice, Quot.sound

## C44
* `Verif.Tui.Build.c44_uninterrupted`: propext, Classical.choice, Quot.sound
* `Verif.Tui.Build.c44_unchanged_without_stale_backup`: propext, Classical.choice, Quot.sound
* `Verif.Tui.Build.c44_interrupted`: propext, Classical.choice, Quot.sound
* `Verif.Tui.Build.c44_success_noticed`: propext, Classical.choice, Quot.sound
* `Verif.Tui.Build.c44_no_data_loss`: propext, Classical.choice, Quot.sound
* `Verif.Tui.Build.c44_late_only_on_abort`: propext, Classical.choice, Quot.sound
* `Verif.Tui.Build.c44_quick_abort_destroys`: propext
* `Verif.Tui.Build.c44_late_success_shows_old`: propext
* `Verif.Tui.Build.c44_stale_backup_appears`: propext
* `Verif.Tui.Build.c44_bak_profile_destroyed`: propext

## C45
* `Verif.Tui.Prompt.c45_trace_measure_iff`: propext, Classical.choice, Quot.sound
* `Verif.Tui.Prompt.c45_build_measure_iff`: propext, Classical.choice, Quot.sound
* `Verif.Tui.Prompt.c45_default_reuses`: propext, Classical.choice, Quot.sound
* `Verif.Tui.Prompt.c45_decline`: propext, Classical.choice, Quot.sound
* `Verif.Tui.Prompt.c45_profile_available`: propext, Classical.choice, Quot.sound
* `Verif.Tui.Prompt.c45_no_question_iff`: propext, Classical.choice, Quot.sound

## C46
* `Verif.Cpp.legacy_spec`: propext, Classical.choice, Quot.sound
* `Verif.Cpp.legacy_order_insensitive`: propext, Classical.choice, Quot.sound
* `Verif.Cpp.denotes_unique`: propext
* `Verif.Cpp.legacy_no_panic`: propext, Classical.choice, Quot.sound
* `Verif.Cpp.legacy_display_parses`: propext, Classical.choice, Quot.sound

## C47
* `Verif.Cpp.binary_panics_iff`: propext, Quot.sound
* `Verif.Cpp.binary_sound`: propext, Quot.sound
* `Verif.Cpp.binary_complete`: propext, Classical.choice, Quot.sound
* `Verif.Cpp.binary_panics_exist`: propext, Classical.choice, Quot.sound

## C48
* `Verif.Cpp.cv_spec`: propext, Classical.choice, Quot.sound
* `Verif.Cpp.cv_total`: propext, Classical.choice, Quot.sound
* `Verif.Cpp.cv_display_parses`: propext, Classical.choice, Quot.sound
* `Verif.Cpp.reference_spec`: propext, Classical.choice, Quot.sound
* `Verif.Cpp.reference_display_parses`: propext, Classical.choice, Quot.sound

## C49
* `Verif.Cpp.c49_parsers_end`: propext, Classical.choice, Quot.sound
* `Verif.Cpp.c49_entity`: propext, Classical.choice, Quot.sound
* `Verif.Cpp.c49_empty`: propext, Classical.choice, Quot.sound
* `Verif.Cpp.grammar_fixpoint`: propext, Classical.choice, Quot.sound
* `Verif.Cpp.grammar_unique`: propext, Classical.choice, Quot.sound

## C50
* `Verif.Cpp.c50_safe`: propext, Classical.choice, Quot.sound
* `Verif.Cpp.c50_relative_lambda_panics`: propext, Classical.choice, Quot.sound
* `Verif.Cpp.c50_long_path_panics`: propext, Classical.choice, Quot.sound
* `Verif.Cpp.c50_other_panics`: propext, Classical.choice, Quot.sound
* `Verif.Cpp.c50_shift_panics`: propext, Classical.choice, Quot.sound
* `Verif.Cpp.c50_refuted`: propext, Classical.choice, Quot.sound

## C51
* `Verif.Trace.c51_value_iff`: propext, Classical.choice, Quot.sound
* `Verif.Trace.c51_panic_iff`: propext, Classical.choice, Quot.sound
* `Verif.Trace.c51_detail_present`: propext, Classical.choice, Quot.sound
* `Verif.Trace.c51_no_panic_when`: propext, Classical.choice, Quot.sound
* `Verif.Trace.c51_symbol_kept`: propext, Classical.choice, Quot.sound
* `Verif.Trace.c51_relative_path_violated`: propext, Classical.choice, Quot.sound

## C52
* `Verif.Display.truncatePath_single_refuted`: propext, Classical.choice, Quot.sound

## C53
* `Verif.Cpp.advertised_depth_succ_suffices`: propext, Classical.choice, Quot.sound
* `Verif.Cpp.advertised_depth_insufficient`: propext, Classical.choice, Quot.sound

## C54
* `Verif.Analysis.typeProfile_spec`: propext, Classical.choice, Quot.sound

## C55
* `Verif.Analysis.displayActivity_spec`: propext, Classical.choice, Quot.sound
* `Verif.Analysis.flatProfile_spec`: propext, Classical.choice, Quot.sound

## C56
* `Verif.Analysis.hierarchical_profile`: propext, Classical.choice, Quot.sound
* `Verif.Analysis.hierTree_no_panic`: propext, Quot.sound
* `Verif.Analysis.hierTree_shows`: propext, Quot.sound
* `Verif.Analysis.hierTree_fits`: propext, Quot.sound
* `Verif.Analysis.hierTree_kids`: propext, Classical.choice, Quot.sound

## C57
* `Verif.Tui.Prompt.c57_age_text`: propext, Classical.choice, Quot.sound
* `Verif.Tui.Prompt.c57_future_file`: propext

## C58
* `Verif.Trace.c58_accept_iff`: propext, Classical.choice, Quot.sound
* `Verif.Trace.c58_beginning_of_time`: propext, Classical.choice, Quot.sound

## C59
* `Verif.Tui.Stack.c59_units`: propext, Classical.choice, Quot.sound
* `Verif.Tui.Stack.c59_cycle`: propext, Classical.choice, Quot.sound

## C60
* `Verif.Tui.Stack.c60_contents`: propext, Classical.choice, Quot.sound
* `Verif.Tui.Stack.c60_path`: propext, Classical.choice, Quot.sound
* `Verif.Tui.Stack.c60_toggle`: propext, Classical.choice, Quot.sound
* `Verif.Tui.Stack.c60_toggle_twice`: propext, Classical.choice, Quot.sound
* `Verif.Tui.Stack.c60_zoom`: propext, Classical.choice, Quot.sound

## C61
* `Verif.Tui.Stack.c61_waiting`: propext, Classical.choice, Quot.sound
* `Verif.Tui.Stack.c61_esc_profile`: propext, Classical.choice, Quot.sound
* `Verif.Tui.Stack.c61_esc_other`: propext, Classical.choice, Quot.sound
* `Verif.Tui.Stack.c61_build_stays`: propext, Classical.choice, Quot.sound
* `Verif.Tui.Stack.c61_jump`: propext, Classical.choice, Quot.sound
* `Verif.Tui.Stack.c61_zoom_esc`: propext, Classical.choice, Quot.sound
* `Verif.Tui.Stack.c61_abort`: propext, Classical.choice, Quot.sound
* `Verif.Tui.Stack.c61_aborted_load`: propext, Classical.choice, Quot.sound
* `Verif.Tui.Stack.c61_stays_aborted`: propext, Quot.sound
* `Verif.Tui.Stack.c61_blank_screen`: propext, Quot.sound

## C62
* `Verif.Tui.Stack.c62_one_dialog`: propext, Classical.choice, Quot.sound
* `Verif.Tui.Stack.c62_background`: propext, Classical.choice, Quot.sound
* `Verif.Tui.Stack.c62_message_lost`: propext, Classical.choice, Quot.sound

## C63
* `Verif.Cpp.c63_reads`: propext, Classical.choice, Quot.sound
* `Verif.Cpp.c63_unambiguous`: propext, Classical.choice, Quot.sound
* `Verif.Cpp.c63_ellipsis_last`: propext, Classical.choice, Quot.sound
* `Verif.Cpp.c63_new`: propext, Classical.choice, Quot.sound

## C64
* `Verif.Cpp.c64_round_trip`: propext, Classical.choice, Quot.sound
* `Verif.Cpp.c64_injective`: propext, Classical.choice, Quot.sound
* `Verif.Cpp.c64_canonical`: propext, Classical.choice, Quot.sound
* `Verif.Cpp.c64_new`: propext, Classical.choice, Quot.sound

## C65
* `Verif.Cpp.c65_ellipsis`: propext, Classical.choice, Quot.sound
* `Verif.Cpp.c65_ambiguous`: propext, Classical.choice, Quot.sound
* `Verif.Cpp.c65_newton`: propext, Classical.choice, Quot.sound
* `Verif.Cpp.c65_control`: propext, Classical.choice, Quot.sound
* `Verif.Cpp.c65_postfix`: propext, Classical.choice, Quot.sound
* `Verif.Cpp.c65_ampersand`: propext, Classical.choice, Quot.sound
* `Verif.Cpp.c65_cast`: propext, Classical.choice, Quot.sound
* `Verif.Cpp.c65_new_anonymous`: propext, Classical.choice, Quot.sound
* `Verif.Cpp.c65_rejected`: propext, Classical.choice, Quot.sound

## C66
* `Verif.Measure.Poll.c66_deadline_not_past`: propext, Classical.choice, Quot.sound
* `Verif.Measure.Poll.c66_no_drift`: propext, Classical.choice, Quot.sound
* `Verif.Measure.Poll.c66_backs_off`: propext, Classical.choice, Quot.sound
* `Verif.Measure.Poll.c66_worker_polls_regularly`: propext, Classical.choice, Quot.sound
* `Verif.Measure.Poll.c66_results_postpone_supervision`: propext, Classical.choice, Quot.sound
* `Verif.Measure.Poll.c66_supervision_can_starve`: propext, Classical.choice, Quot.sound
* `Verif.Measure.Poll.c66_interval_at_least_initial`: propext, Classical.choice, Quot.sound
* `Verif.Measure.Poll.c66_interval_shrinks_violated`: propext, Classical.choice, Quot.sound

## C67
* `Verif.Tui.Sorting.c67_sorted_as_chosen`: propext, Classical.choice, Quot.sound
* `Verif.Tui.Sorting.c67_sorted_by_chosen`: propext, Classical.choice, Quot.sound
* `Verif.Tui.Sorting.c67_marked`: propext, Classical.choice, Quot.sound
* `Verif.Tui.Sorting.c67_select_again_flips`: propext, Classical.choice, Quot.sound
* `Verif.Tui.Sorting.c67_rows_kept`: propext, Classical.choice, Quot.sound
* `Verif.Tui.Sorting.c67_description_order_violated`: propext, Quot.sound

## C68
* `Verif.Display.Columns.c68_durations_fit`: propext, Classical.choice, Quot.sound
* `Verif.Display.Columns.c68_profile_fits`: propext, Quot.sound
* `Verif.Display.Columns.c68_build_profile_fits`: propext, Quot.sound
* `Verif.Display.Columns.c68_footer_fits`: propext, Quot.sound

## C69
* `Verif.Build.ProfileTable.c69_table_works`: propext, Classical.choice, Quot.sound
* `Verif.Build.ProfileTable.c69_measured_profile_works`: propext, Classical.choice, Quot.sound
* `Verif.Build.ProfileTable.c69_time_order`: propext, Classical.choice, Quot.sound
* `Verif.Build.ProfileTable.c69_other_orders`: propext
* `Verif.Build.ProfileTable.c69_missing_time_panics`: propext, Classical.choice, Quot.sound
* `Verif.Build.ProfileTable.c69_nan_panics`: propext, Classical.choice, Quot.sound

## C70
* `Verif.Build.Clang.c70_accepted`: propext, Classical.choice, Quot.sound
* `Verif.Build.Clang.c70_ancient`: propext, Classical.choice, Quot.sound
* `Verif.Build.Clang.c70_unexpected`: propext, Classical.choice, Quot.sound
* `Verif.Build.Clang.c70_other_errors`: propext, Quot.sound
* `Verif.Build.Clang.c70_usual`: propext, Classical.choice, Quot.sound

## C71
* `Verif.Measure.Job.c71_success`: propext, Classical.choice, Quot.sound
* `Verif.Measure.Job.c71_killed`: propext, Classical.choice, Quot.sound
* `Verif.Measure.Job.c71_killed_conv`: propext, Classical.choice, Quot.sound
* `Verif.Measure.Job.c71_running`: propext, Classical.choice, Quot.sound
* `Verif.Measure.Job.c71_not_started`: propext
* `Verif.Measure.Job.c71_not_utf8_panics`: propext, Classical.choice, Quot.sound

## C72
* `Verif.Measure.Job.c72_can_end`: propext, Quot.sound
* `Verif.Measure.Job.c72_too_much_output_never_ends`: propext, Quot.sound
* `Verif.Measure.Job.c72_small_output_progress`: propext, Quot.sound
* `Verif.Measure.Job.c72_left_decreases`: propext, Quot.sound

## C73
* `Verif.Measure.c73_bounded`: propext, Classical.choice, Quot.sound
* `Verif.Measure.c73_not_stuck`: propext, Classical.choice, Quot.sound
* `Verif.Measure.c73_can_end`: propext, Classical.choice, Quot.sound

## C74
* `Verif.Trace.Ctf.c74_reads`: propext, Classical.choice, Quot.sound
* `Verif.Trace.Ctf.c74_unknown_ignored`: propext, Classical.choice, Quot.sound
* `Verif.Trace.Ctf.c74_key_order`: propext, Classical.choice, Quot.sound
* `Verif.Trace.Ctf.c74_map`: propext, Classical.choice, Quot.sound
* `Verif.Trace.Ctf.c74_detail`: propext, Classical.choice, Quot.sound
* `Verif.Trace.Ctf.c74_accept_iff`: propext, Classical.choice, Quot.sound
* `Verif.Trace.Ctf.c74_panic_iff`: propext, Classical.choice, Quot.sound
* `Verif.Trace.Ctf.c74_one_bad_event`: propext, Classical.choice, Quot.sound
* `Verif.Trace.Ctf.c74_other_phase`: propext, Classical.choice, Quot.sound
* `Verif.Trace.Ctf.c74_twice`: propext, Classical.choice, Quot.sound
* `Verif.Trace.Ctf.c74_activities`: propext, Classical.choice, Quot.sound
* `Verif.Trace.Ctf.c74_origin`: propext, Classical.choice, Quot.sound
* `Verif.Trace.Ctf.c74_stack_order_violated`: propext, Classical.choice, Quot.sound
* `Verif.Trace.Ctf.c74_malformed_iff`: propext, Classical.choice, Quot.sound

## C75
* `Verif.Build.Shlex.c75_words`: propext, Quot.sound
* `Verif.Build.Shlex.c75_unclosed`: propext, Quot.sound
* `Verif.Build.Shlex.c75_every_text`: propext, Classical.choice, Quot.sound
* `Verif.Build.Shlex.c75_quoted`: propext, Quot.sound
* `Verif.Build.c75_database_iff`: propext, Classical.choice, Quot.sound
* `Verif.Build.c75_lookup`: propext, Classical.choice, Quot.sound
* `Verif.Build.c75_unknown_key`: propext, Classical.choice, Quot.sound
* `Verif.Build.c75_commands`: propext, Classical.choice, Quot.sound
* `Verif.Build.c75_no_program`: propext, Classical.choice, Quot.sound

## C76
* `Verif.Build.c76_same_file`: propext, Quot.sound
* `Verif.Build.c76_found`: propext, Quot.sound
* `Verif.Build.c76_selected_iff`: propext, Quot.sound
* `Verif.Build.c76_relative_violated`: propext, Quot.sound
* `Verif.Build.c76_link_violated`: propext, Classical.choice, Quot.sound

## C77
* `Verif.Tui.Wizard.c77_trace_place`: propext, Classical.choice, Quot.sound
* `Verif.Tui.Wizard.c77_given_output`: propext, Classical.choice, Quot.sound
* `Verif.Tui.Wizard.c77_measure_iff`: propext, Classical.choice, Quot.sound
* `Verif.Tui.Wizard.c77_load`: propext, Classical.choice, Quot.sound
* `Verif.Tui.Wizard.c77_unit_to_trace`: propext, Classical.choice, Quot.sound
* `Verif.Tui.Wizard.c77_dialogs`: propext, Classical.choice, Quot.sound

## C78
* `Verif.Build.Csv.c78_records`: propext, Quot.sound
* `Verif.Build.Csv.c78_records_roundtrip`: propext, Quot.sound
* `Verif.Build.Csv.c78_records_prefix`: propext, Quot.sound
* `Verif.Build.ProfileCsv.c78_load_iff`: propext, Classical.choice, Quot.sound
* `Verif.Build.ProfileCsv.c78_roundtrip`: propext, Classical.choice, Quot.sound
* `Verif.Build.ProfileCsv.c78_prefix`: propext, Classical.choice, Quot.sound
* `Verif.Build.ProfileCsv.c78_cut_time_violated`: propext, Classical.choice, Quot.sound
* `Verif.Build.FloatText.c78_times`: propext, Classical.choice, Quot.sound
* `Verif.Build.FloatText.c78_file`: propext, Classical.choice, Quot.sound
* `Verif.Build.FloatText.c78_rewrite`: propext, Classical.choice, Quot.sound

## C79
* `Verif.Trace.Ctf.Text.c79_reads`: propext, Classical.choice, Quot.sound
* `Verif.Trace.Ctf.Text.c79_unambiguous`: propext, Classical.choice, Quot.sound
* `Verif.Trace.Ctf.Text.c79_cut`: propext, Classical.choice, Quot.sound
* `Verif.Trace.Ctf.Text.c79_values`: propext, Classical.choice, Quot.sound
* `Verif.Trace.Ctf.Text.c79_integers`: propext, Classical.choice, Quot.sound
* `Verif.Build.JsonFiles.c79_trace_iff`: propext, Classical.choice, Quot.sound
* `Verif.Build.JsonFiles.c79_trace_panic_iff`: propext, Classical.choice, Quot.sound
* `Verif.Build.JsonFiles.c79_trace_cut`: propext, Classical.choice, Quot.sound
* `Verif.Build.JsonFiles.c79_database_iff`: propext, Classical.choice, Quot.sound
* `Verif.Build.JsonFiles.c79_database_cut`: propext, Classical.choice, Quot.sound

## C80
* `Verif.Measure.Weak.c80_sleep`: propext, Classical.choice, Quot.sound
* `Verif.Measure.Weak.c80_enough_awake`: propext, Classical.choice, Quot.sound
* `Verif.Measure.Weak.c80_end`: propext, Classical.choice, Quot.sound
* `Verif.Measure.Weak.c80_orderings`: propext, Classical.choice, Quot.sound

## C81
* `Verif.Measure.WeakStop.c81_only_asked`: propext, Classical.choice, Quot.sound
* `Verif.Measure.WeakStop.c81_latched`: propext, Classical.choice, Quot.sound
* `Verif.Measure.WeakStop.c81_obeyed`: propext, Classical.choice, Quot.sound
* `Verif.Measure.WeakStop.c81_stop_iff`: propext, Classical.choice, Quot.sound
* `Verif.Measure.WeakStop.c81_visible`: propext, Classical.choice, Quot.sound
* `Verif.Measure.WeakStop.c81_orderings`: propext

## C82
* `Verif.Analysis.Stdio.c82_interface`: propext
* `Verif.Analysis.Stdio.c82_columns`: propext, Quot.sound
* `Verif.Analysis.Stdio.c82_no_report`: propext, Classical.choice, Quot.sound
* `Verif.Analysis.Stdio.c82_completes`: propext, Classical.choice, Quot.sound
* `Verif.Analysis.Stdio.c82_report`: propext, Classical.choice, Quot.sound
* `Verif.Analysis.Stdio.c82_several_roots`: propext, Classical.choice, Quot.sound
* `Verif.Analysis.Stdio.c82_total`: propext, Classical.choice, Quot.sound

## C83
* `Verif.Tui.TraceWait.c83_ends`: propext, Classical.choice, Quot.sound
* `Verif.Tui.TraceWait.c83_meaning`: propext, Classical.choice, Quot.sound
* `Verif.Tui.TraceWait.c83_abort`: propext, Classical.choice, Quot.sound
* `Verif.Tui.TraceWait.c83_completed`: propext, Classical.choice, Quot.sound
* `Verif.Tui.TraceWait.c83_message`: propext, Classical.choice, Quot.sound
* `Verif.Tui.TraceWait.c83_screen`: propext
* `Verif.Tui.TraceWait.c83_too_much_output`: propext, Classical.choice, Quot.sound

## C84
* `Verif.Cpp.Simpp.c84_prints`: propext, Classical.choice, Quot.sound
* `Verif.Cpp.Simpp.c84_ordinary`: propext, Classical.choice, Quot.sound
* `Verif.Cpp.Simpp.c84_unknown`: propext, Classical.choice, Quot.sound

## C85
* `Verif.Measure.Youngest.c85_counters`: propext, Quot.sound
* `Verif.Measure.Youngest.c85_victims`: propext, Classical.choice, Quot.sound
* `Verif.Measure.Youngest.c85_jobless_first`: propext, Classical.choice, Quot.sound
* `Verif.Measure.Youngest.c85_idle_victim`: propext, Classical.choice, Quot.sound

## C86
* `Verif.Analysis.Share.c86_percent`: propext, Classical.choice, Quot.sound
* `Verif.Analysis.Share.c86_percent_tui`: propext, Classical.choice, Quot.sound
* `Verif.Analysis.Share.c86_order`: propext, Classical.choice, Quot.sound
* `Verif.Analysis.Share.c86_type_profile`: propext, Classical.choice, Quot.sound
* `Verif.Analysis.Share.c86_threshold`: propext, Classical.choice, Quot.sound
* `Verif.Analysis.Share.c86_whole_below_one`: propext, Classical.choice, Quot.sound
* `Verif.Analysis.FloatBreakdown.c86_trace`: propext, Classical.choice, Quot.sound

## C87
* `Verif.Analysis.WholeTrace.c87_self`: propext, Classical.choice, Quot.sound
* `Verif.Analysis.WholeTrace.c87_total`: propext, Classical.choice, Quot.sound
* `Verif.Analysis.WholeTrace.c87_breakdown`: propext, Classical.choice, Quot.sound
* `Verif.Analysis.WholeTrace.c87_percent`: propext, Classical.choice, Quot.sound
* `Verif.Analysis.WholeTrace.c87_file`: propext, Classical.choice, Quot.sound

## C88
* `Verif.Analysis.HotTree.c88_hierarchical`: propext, Classical.choice, Quot.sound
* `Verif.Analysis.HotTree.c88_flat`: propext, Classical.choice, Quot.sound
* `Verif.Analysis.HotTree.c88_option`: propext, Classical.choice, Quot.sound

## C89
* `Verif.Build.EndToEnd.c89_jobs`: propext, Quot.sound
* `Verif.Build.EndToEnd.c89_complete`: propext, Classical.choice, Quot.sound
* `Verif.Build.EndToEnd.c89_interrupted`: propext, Classical.choice, Quot.sound
* `Verif.Build.EndToEnd.c89_selected`: propext, Classical.choice, Quot.sound

## C90
* `Verif.Trace.c90_taken_iff`: propext, Classical.choice, Quot.sound
* `Verif.Trace.c90_exactly_one`: propext, Classical.choice, Quot.sound
* `Verif.Trace.c90_recorded_iff`: propext, Classical.choice, Quot.sound
* `Verif.Trace.c90_resolved`: propext, Classical.choice, Quot.sound

## C91
* `Verif.Measure.c91_number`: none
* `Verif.Measure.c91_bounded`: propext, Classical.choice, Quot.sound
* `Verif.Measure.c91_timed_alone`: propext, Classical.choice, Quot.sound

## C92
* `Verif.Cpp.Keys.c92_keys_iff`: propext, Classical.choice, Quot.sound
* `Verif.Cpp.Keys.c92_reads`: propext, Classical.choice, Quot.sound
* `Verif.Cpp.Keys.c92_only_exhaustion`: propext, Classical.choice, Quot.sound
* `Verif.Cpp.Keys.c92_room`: propext, Classical.choice, Quot.sound
* `Verif.Cpp.Keys.c92_call_limit`: propext, Classical.choice, Quot.sound
* `Verif.Cpp.Keys.c92_parse_iff`: propext, Classical.choice, Quot.sound
* `Verif.Cpp.Keys.c92_spellings`: propext, Classical.choice, Quot.sound

## C93
* `Verif.Tree.c93_self_le_duration`: propext, Classical.choice, Quot.sound
* `Verif.Tree.c93_self_error`: propext, Classical.choice, Quot.sound
* `Verif.Tree.c93_subtree_error`: propext, Classical.choice, Quot.sound
* `Verif.Tree.c93_total_error`: propext, Classical.choice, Quot.sound
* `Verif.Analysis.WholeTrace.c93_breakdown`: propext, Classical.choice, Quot.sound
* `Verif.Analysis.WholeTrace.c93_percent`: propext, Classical.choice, Quot.sound
* `Verif.Analysis.WholeTrace.c93_document_self`: propext, Classical.choice, Quot.sound
* `Verif.Analysis.WholeTrace.c93_document_profile`: propext, Classical.choice, Quot.sound
* `Verif.Analysis.HotTree.c93_hierarchical`: propext, Classical.choice, Quot.sound
* `Verif.Analysis.HotTree.c93_flat`: propext, Classical.choice, Quot.sound
* `Verif.Analysis.HotTree.c93_hidden`: propext, Classical.choice, Quot.sound
* `Verif.Analysis.HotTree.c93_types`: propext, Classical.choice, Quot.sound
* `Verif.Analysis.HotTree.c93_order`: propext, Classical.choice, Quot.sound

## C94
* `Verif.Trace.Ctf.Text.Decimal.c94_exact`: propext, Classical.choice, Quot.sound
* `Verif.Trace.Ctf.Text.Decimal.c94_whole`: propext, Classical.choice, Quot.sound
* `Verif.Trace.Ctf.Text.Decimal.c94_error`: propext, Classical.choice, Quot.sound
* `Verif.Trace.Ctf.Text.Decimal.c94_all`: propext, Classical.choice, Quot.sound
* `Verif.Trace.Ctf.Text.Decimal.c94_refused`: propext, Classical.choice, Quot.sound

