{
 "claims": [
  {
   "property": "C01",
   "status": "proved",
   "theorems": [
    "TF.C01_record_stores_data",
    "TF.C01_record_succeeds"
   ],
   "note": "`C01_record_succeeds` shows that the success hypothesis is met on every file system where the directory can be created."
  },
  {
   "property": "C02",
   "status": "proved",
   "theorems": [
    "TF.C02_corpus_is_set",
    "TF.C02_order_independent",
    "TF.C02_idempotent"
   ],
   "note": "\"No collision\" is assumed only of the inputs of the sequence and of nothing else."
  },
  {
   "property": "C03",
   "status": "proved",
   "theorems": [
    "TF.Conc.C03_concurrent_recordings"
   ],
   "note": "Writers write the same data to the same file; the directory exists already."
  },
  {
   "property": "C04",
   "status": "proved",
   "theorems": [
    "TF.C04_call",
    "TF.C04_stored_or_panics",
    "TF.C04_interrupted",
    "TF.C04_rerun_heals",
    "TF.C04_tree"
   ],
   "note": ""
  },
  {
   "property": "C05",
   "status": "proved",
   "theorems": [
    "TF.C05_writer_reader_agree",
    "TF.C05_disagree_without_proviso",
    "TF.C05_witness"
   ],
   "note": "`C05_disagree_without_proviso` proves that the proviso on `_fuzz__` is needed."
  },
  {
   "property": "C06",
   "status": "proved",
   "theorems": [
    "TF.C06_id",
    "TF.C06_place",
    "TF.C06_no_metadata",
    "TF.C06_slash_in_id",
    "TF.C06_directories_apart",
    "TF.C06_findings_inside",
    "TF.C06_dash_underscore_share"
   ],
   "note": "`C06_dash_underscore_share`: crates `a-b` and `a_b` do share a directory; the theorem takes crate names after the code's replacement of `-`."
  },
  {
   "property": "C07",
   "status": "proved",
   "theorems": [
    "TF.C07_not_due",
    "TF.C07_due"
   ],
   "note": ""
  },
  {
   "property": "C08",
   "status": "proved",
   "theorems": [
    "TF.C08_fuzzer_environment",
    "TF.C08_harness_environment",
    "TF.C08_harness_records_nothing",
    "TF.C08_fuzzer_records_nothing",
    "TF.C08_replay_records_nothing",
    "TF.C08_records_nothing"
   ],
   "note": ""
  },
  {
   "property": "C09",
   "status": "proved",
   "theorems": [
    "TF.C09_switches",
    "TF.C09_variables_distinct"
   ],
   "note": ""
  },
  {
   "property": "C10",
   "status": "proved",
   "theorems": [
    "TF.C10_inert",
    "TF.C10_hint_once"
   ],
   "note": ""
  },
  {
   "property": "C11",
   "status": "proved",
   "theorems": [
    "TF.C11_called_once",
    "TF.C11_undecodable",
    "TF.C11_display_only"
   ],
   "note": ""
  },
  {
   "property": "C12",
   "status": "proved",
   "theorems": [
    "TF.C12_fuzzing_aborts",
    "TF.C12_fuzzing_succeeds",
    "TF.C12_replaying_fails",
    "TF.C12_replaying_succeeds"
   ],
   "note": ""
  },
  {
   "property": "C13",
   "status": "proved",
   "theorems": [
    "TF.C13_postcard",
    "TF.C13_round_trip",
    "TF.C13_recordable",
    "TF.C13_hidden",
    "TF.C13_record_replay"
   ],
   "note": "`C13_round_trip` takes a codec with a round-trip law; `C13_postcard` proves the law for the default format. The user's `convert`s are assumed mutually inverse on the values concerned."
  },
  {
   "property": "C14",
   "status": "proved",
   "theorems": [
    "TF.C14_loss_free",
    "TF.C14_field_type"
   ],
   "note": ""
  },
  {
   "property": "C15",
   "status": "proved",
   "theorems": [
    "TF.C15_all_used",
    "TF.C15_last_wins",
    "TF.C15_attributes",
    "TF.C15_not_behind_references",
    "TF.C15_same_key",
    "TF.C15_types",
    "TF.C15_last_for_type"
   ],
   "note": "`C15_not_behind_references`: a conversion for `X` is not applied to an argument of type `&X`. `C15_same_key`, `C15_types` and `C15_last_for_type` are for types of the forms listed in Spec/TyText; these include `dyn` and `impl` with traits and lifetimes, but not function types, bindings or bounds in generic arguments, nor `?` or `for<..>` in bounds."
  },
  {
   "property": "C16",
   "status": "proved",
   "theorems": [
    "TF.C16_round_trip",
    "TF.C16_long_string",
    "TF.C16_prefix_free",
    "TF.C16_read_stable",
    "TF.C16_prefix_only",
    "TF.C16_writes",
    "TF.C16_reads"
   ],
   "note": "The wire format of postcard 1.1.3 is modelled from its specification (source not in the repository). Two readings of the sliding buffer are covered."
  },
  {
   "property": "C17",
   "status": "proved",
   "theorems": [
    "TF.C17_same",
    "TF.C17_selected",
    "TF.C17_both"
   ],
   "note": ""
  },
  {
   "property": "C18",
   "status": "proved",
   "theorems": [
    "TF.C18_every_value_used",
    "TF.C18_only_values",
    "TF.C18_recorded",
    "TF.C18_off"
   ],
   "note": ""
  },
  {
   "property": "C19",
   "status": "proved",
   "theorems": [
    "TF.C19_number",
    "TF.C19_no_arguments",
    "TF.C19_none",
    "TF.C19_total"
   ],
   "note": ""
  },
  {
   "property": "C20",
   "status": "proved",
   "theorems": [
    "TF.C20_integers",
    "TF.C20_default_only",
    "TF.C20_nothing",
    "TF.C20_rounding",
    "TF.C20_floats",
    "TF.C20_f32_f64"
   ],
   "note": ""
  },
  {
   "property": "C21",
   "status": "proved",
   "theorems": [
    "TF.C21_generation",
    "TF.C21_stops",
    "TF.C21_all_there"
   ],
   "note": ""
  },
  {
   "property": "C22",
   "status": "proved",
   "theorems": [
    "TF.C22_discovery_exact",
    "TF.C22_unreadable_is_error",
    "TF.C22_executables",
    "TF.C22_failing_executable"
   ],
   "note": ""
  },
  {
   "property": "C23",
   "status": "proved",
   "theorems": [
    "TF.C23_harness_process",
    "TF.C23_only_listed",
    "TF.C23_loop",
    "TF.C23_declared",
    "TF.C23_distinct"
   ],
   "note": ""
  },
  {
   "property": "C24",
   "status": "proved",
   "theorems": [
    "TF.C24_selection",
    "TF.C24_exact_selects_less",
    "TF.C24_no_empty_executable",
    "TF.C24_flatten"
   ],
   "note": ""
  },
  {
   "property": "C25",
   "status": "proved",
   "theorems": [
    "TF.C25_release_check",
    "TF.C25_missing_dependency",
    "TF.C25_prerelease_tool",
    "TF.C25_all_checked",
    "TF.C25_requirement",
    "TF.C25_precedence_linear",
    "TF.C25_check",
    "TF.C25_run"
   ],
   "note": "`semver` is modelled from its documentation."
  },
  {
   "property": "C26",
   "status": "proved",
   "theorems": [
    "TF.C26_never_both",
    "TF.C26_fuzzing_iff",
    "TF.C26_coverage_iff",
    "TF.C26_invalid_rejected",
    "TF.C26_valid_accepted"
   ],
   "note": ""
  },
  {
   "property": "C27",
   "status": "proved",
   "theorems": [
    "TF.C27_read_only",
    "TF.C27_list_prints"
   ],
   "note": ""
  },
  {
   "property": "C28",
   "status": "proved",
   "theorems": [
    "TF.C28_only_removes",
    "TF.C28_rerun",
    "TF.C28_reset_removes",
    "TF.C28_reset_touches_only_output",
    "TF.C28_reset_keeps_corpora",
    "TF.C28_reset_succeeds",
    "TF.C28_unseen"
   ],
   "note": ""
  },
  {
   "property": "C29",
   "status": "proved",
   "theorems": [
    "TF.C29_files",
    "TF.C29_consolidate",
    "TF.C29_consolidate_succeeds",
    "TF.C29_other_targets_untouched",
    "TF.C29_tree"
   ],
   "note": ""
  },
  {
   "property": "C30",
   "status": "proved",
   "theorems": [
    "TF.C30_rerun",
    "TF.C30_stuck",
    "TF.C30_no_input_lost",
    "TF.C30_reset_all_overrides_consolidate"
   ],
   "note": ""
  },
  {
   "property": "C31",
   "status": "proved",
   "theorems": [
    "TF.C31_consolidate_all_exactly",
    "TF.C31_consolidate_all_never_finishes",
    "TF.C31_consolidate_all_succeeds"
   ],
   "note": "The expectation (any number of targets) is false of the code. The boundary is proved: `C31_consolidate_all_exactly` is an equivalence, `C31_consolidate_all_never_finishes` says what happens beyond it."
  },
  {
   "property": "C32",
   "status": "proved",
   "theorems": [
    "TF.C32_directory",
    "TF.C32_run",
    "TF.C32_objects",
    "TF.C32_missing",
    "TF.C32_unseen",
    "TF.C32_once"
   ],
   "note": "What a harness does to the file system (`Sys.leaves`) is arbitrary, except that it does not change the directory of stored inputs (`Untouched`, `Spared`; not assumed for objects that are only shown)."
  },
  {
   "property": "C33",
   "status": "proved",
   "theorems": [
    "TF.C33_survives"
   ],
   "note": "A harness that ends at exactly the time limit is treated as ending in time; the code may do either. A harness that closes standard error but never exits blocks `wait`; it is excluded by the hypothesis that harnesses can be waited for (`HarnessesRun`)."
  },
  {
   "property": "C34",
   "status": "proved",
   "theorems": [
    "TF.C34_cpus",
    "TF.C34_at_most_cpus_fuzzers",
    "TF.C34_slot_is_target",
    "TF.C34_running_count"
   ],
   "note": ""
  },
  {
   "property": "C35",
   "status": "proved",
   "theorems": [
    "TF.C35_loop_does_not_panic",
    "TF.C35_no_panic_with_ui"
   ],
   "note": "With the UI, `C35_no_panic_with_ui` assumes ASCII output and a terminal that is there (see C45)."
  },
  {
   "property": "C36",
   "status": "proved",
   "theorems": [
    "TF.C36_started_in_order",
    "TF.C36_all_started_before_waiting",
    "TF.C36_done",
    "TF.C36_ends_when_all_ended"
   ],
   "note": ""
  },
  {
   "property": "C37",
   "status": "proved",
   "theorems": [
    "TF.C37_no_starvation",
    "TF.C37_fair_exactly",
    "TF.C37_round_robin"
   ],
   "note": ""
  },
  {
   "property": "C38",
   "status": "proved",
   "theorems": [
    "TF.C38_starves",
    "TF.C38_waits_exactly",
    "TF.C38_livelock_reachable",
    "TF.C38_waits_within_one_pass",
    "TF.C38_livelock"
   ],
   "note": "The expectation is false of the code. The boundary is proved: `C38_waits_exactly` is an equivalence, `C38_starves` and `C38_livelock` say what happens beyond it, `C38_livelock_reachable` that this occurs."
  },
  {
   "property": "C39",
   "status": "proved",
   "theorems": [
    "TF.C39_first_then_resume",
    "TF.C39_single"
   ],
   "note": ""
  },
  {
   "property": "C40",
   "status": "proved",
   "theorems": [
    "TF.C40_all_failed",
    "TF.C40_failure_does_not_stop_others",
    "TF.C40_failed_never_restarted"
   ],
   "note": ""
  },
  {
   "property": "C41",
   "status": "proved",
   "theorems": [
    "TF.C41_loop_iterates",
    "TF.C41_reach",
    "TF.C41_exit_only_if",
    "TF.C41_exit_if",
    "TF.C41_endings",
    "TF.C41_normal_end",
    "TF.C41_status",
    "TF.C41_plain_status"
   ],
   "note": ""
  },
  {
   "property": "C42",
   "status": "proved",
   "theorems": [
    "TF.C42_chunking",
    "TF.C42_independent_of_chunking",
    "TF.C42_in_the_loop"
   ],
   "note": ""
  },
  {
   "property": "C43",
   "status": "proved",
   "theorems": [
    "TF.C43_indications",
    "TF.C43_under_own_heading",
    "TF.C43_all_lines_printed",
    "TF.C43_ui_shows_own_lines"
   ],
   "note": ""
  },
  {
   "property": "C44",
   "status": "proved",
   "theorems": [
    "TF.C44_refresh_fits",
    "TF.C44_refresh_succeeds"
   ],
   "note": ""
  },
  {
   "property": "C45",
   "status": "proved",
   "theorems": [
    "TF.C45_truncation",
    "TF.C45_panics",
    "TF.C45_safe_iff",
    "TF.C45_divider",
    "TF.C45_truncation_ascii",
    "TF.C45_divider_ascii",
    "TF.C45_panics_on_other_text"
   ],
   "note": "The expectation that it never panics is false of the code for text that is not ASCII. `C45_truncation` and `C45_divider` hold for all text, `C45_safe_iff` is the boundary. Any monotone count of visible bytes."
  },
  {
   "property": "C46",
   "status": "proved",
   "theorems": [
    "TF.C46_command_line",
    "TF.C46_environment",
    "TF.C46_one_target",
    "TF.C46_loop"
   ],
   "note": ""
  },
  {
   "property": "C47",
   "status": "proved",
   "theorems": [
    "TF.C47_milliseconds",
    "TF.C47_overflow"
   ],
   "note": ""
  },
  {
   "property": "C48",
   "status": "proved",
   "theorems": [
    "TF.C48_transparent",
    "TF.C48_deserialize",
    "TF.C48_deserialize_fails",
    "TF.C48_round_trip",
    "TF.C48_references"
   ],
   "note": ""
  },
  {
   "property": "C49",
   "status": "proved",
   "theorems": [
    "TF.C49_error",
    "TF.C49_error_iff",
    "TF.C49_released"
   ],
   "note": ""
  },
  {
   "property": "C50",
   "status": "proved",
   "theorems": [
    "TF.C50_no_space",
    "TF.C50_reads",
    "TF.C50_leak",
    "TF.C50_leak_local"
   ],
   "note": ""
  },
  {
   "property": "C51",
   "status": "proved",
   "theorems": [
    "TF.C51_meaning",
    "TF.C51_none_left",
    "TF.C51_total",
    "TF.C51_arguments_left",
    "TF.C51_constants_left",
    "TF.C51_inherent_panics"
   ],
   "note": "Exceptions proved: `C51_arguments_left`, `C51_constants_left`, `C51_inherent_panics`."
  },
  {
   "property": "C52",
   "status": "proved",
   "theorems": [
    "TF.C52_meaning",
    "TF.C52_meaning_path",
    "TF.C52_success",
    "TF.C52_too_many",
    "TF.C52_positions",
    "TF.C52_projection_left",
    "TF.C52_const_left"
   ],
   "note": "Exceptions proved: `C52_projection_left`, `C52_const_left`."
  },
  {
   "property": "C53",
   "status": "proved",
   "theorems": [
    "TF.C53_terminates",
    "TF.C53_only_marks",
    "TF.C53_only_marks_path",
    "TF.C53_erase",
    "TF.C53_first_marked",
    "TF.C53_first_marked_path",
    "TF.C53_later_missed",
    "TF.C53_doubled",
    "TF.C53_qualified_marked"
   ],
   "note": "Exceptions proved: `C53_later_missed`, `C53_doubled`."
  },
  {
   "property": "C54",
   "status": "proved",
   "theorems": [
    "TF.C54_name",
    "TF.C54_name_exists",
    "TF.C54_distinct",
    "TF.C54_distinct_renamed",
    "TF.C54_clash",
    "TF.C54_listed"
   ],
   "note": "`C54_clash`: without the hypotheses two targets can get the same module."
  },
  {
   "property": "C55",
   "status": "proved",
   "theorems": [
    "TF.C55_distinct",
    "TF.C55_clash",
    "TF.C55_crate"
   ],
   "note": "`C55_clash` is the exception. `C55_crate` is about all uses of the macros in a crate."
  },
  {
   "property": "C56",
   "status": "proved",
   "theorems": [
    "TF.C56_items",
    "TF.C56_function",
    "TF.C56_warning",
    "TF.C56_untouched"
   ],
   "note": ""
  },
  {
   "property": "C57",
   "status": "proved",
   "theorems": [
    "TF.C57_shown"
   ],
   "note": ""
  },
  {
   "property": "C58",
   "status": "proved",
   "theorems": [
    "TF.C58_exact"
   ],
   "note": ""
  },
  {
   "property": "C59",
   "status": "proved",
   "theorems": [
    "TF.C59_dependency_versions",
    "TF.C59_missing_is_error",
    "TF.C59_unknown_is_error"
   ],
   "note": ""
  },
  {
   "property": "C60",
   "status": "proved",
   "theorems": [
    "TF.C60_paths",
    "TF.C60_not_a_path",
    "TF.C60_variables",
    "TF.C60_none"
   ],
   "note": ""
  },
  {
   "property": "C61",
   "status": "proved",
   "theorems": [
    "TF.C61_same_child"
   ],
   "note": ""
  },
  {
   "property": "C62",
   "status": "proved",
   "theorems": [
    "TF.C62_command",
    "TF.C62_result",
    "TF.C62_failure",
    "TF.C62_directory",
    "TF.C62_run"
   ],
   "note": ""
  },
  {
   "property": "C63",
   "status": "proved",
   "theorems": [
    "TF.C63_retry",
    "TF.C63_success",
    "TF.C63_failure"
   ],
   "note": ""
  },
  {
   "property": "C64",
   "status": "proved",
   "theorems": [
    "TF.C64_same_workspace",
    "TF.C64_wrong_workspace",
    "TF.C64_ignored",
    "TF.C64_exactly"
   ],
   "note": "The expectation is false of the code. `C64_exactly` is the boundary, `C64_ignored` says that the option has no influence."
  },
  {
   "property": "C65",
   "status": "proved",
   "theorems": [
    "TF.C65_transparent",
    "TF.C65_call"
   ],
   "note": ""
  },
  {
   "property": "C66",
   "status": "proved",
   "theorems": [
    "TF.C66_single_target_only"
   ],
   "note": ""
  },
  {
   "property": "C67",
   "status": "proved",
   "theorems": [
    "TF.C67_succeeds",
    "TF.C67_fuzzing_builds",
    "TF.C67_harness_present",
    "TF.C67_or_panics",
    "TF.C67_impl_or_panics",
    "TF.C67_harness_iff",
    "TF.C67_coverage_warning"
   ],
   "note": ""
  },
  {
   "property": "C68",
   "status": "proved",
   "theorems": [
    "TF.C68_lifetimes_filled",
    "TF.C68_result",
    "TF.C68_result_meaning",
    "TF.C68_field_meaning",
    "TF.C68_parameters_used",
    "TF.C68_callee"
   ],
   "note": ""
  },
  {
   "property": "C69",
   "status": "proved",
   "theorems": [
    "TF.C69_corpus",
    "TF.C69_replayed"
   ],
   "note": "`hinj` assumes that SHA-1 does not collide on the recorded data. Instantiations of one generic target share a directory, which the statement takes into account (`Recorded`)."
  },
  {
   "property": "C70",
   "status": "proved",
   "theorems": [
    "TF.Cli.C70_command_line",
    "TF.Cli.C70_otherwise_nothing",
    "TF.Cli.C70_only_as_subcommand",
    "TF.Cli.C70_accepted_runs",
    "TF.Cli.C70_everything_can_be_asked",
    "TF.C70_complaint"
   ],
   "note": "clap is a dependency without source here; its algorithm is modelled from its documentation for the features these declarations use."
  },
  {
   "property": "C71",
   "status": "proved",
   "theorems": [
    "TF.C71_parse",
    "TF.C71_unambiguous",
    "TF.C71_printed",
    "TF.C71_requirement",
    "TF.C71_cargo_afl"
   ],
   "note": "semver is a dependency without source here; modelled from memory of its parser. Standard output is taken after `from_utf8_lossy`."
  },
  {
   "property": "C72",
   "status": "proved",
   "theorems": [
    "TF.C72_mode",
    "TF.C72_storage"
   ],
   "note": ""
  },
  {
   "property": "C73",
   "status": "proved",
   "theorems": [
    "TF.C73_sha1",
    "TF.C73_recorded_name"
   ],
   "note": "Collision freedom is not claimed: where a theorem needs it for the data at hand it is a hypothesis."
  },
  {
   "property": "C74",
   "status": "proved",
   "theorems": [
    "TF.C74_persistent",
    "TF.C74_agrees",
    "TF.C74_displays_nothing",
    "TF.C74_replays_silently"
   ],
   "note": "`afl::fuzz!` is of the crate afl, which is not in the repository: it is modelled from its documentation as a loop over the inputs with a hook that aborts, and an abort if a panic gets out of the closure. User code is a function of the arguments (no state carried over between calls)."
  },
  {
   "property": "C75",
   "status": "proved",
   "theorems": [
    "TF.C75_fuzzing",
    "TF.C75_replaying",
    "TF.C75_around"
   ],
   "note": "the function is a parameter: any program that is given the closure."
  },
  {
   "property": "C76",
   "status": "proved",
   "theorems": [
    "TF.C76_writes",
    "TF.C76_reads",
    "TF.C76_round_trip",
    "TF.C76_prefix_free",
    "TF.C76_read_stable",
    "TF.C76_arguments",
    "TF.C76_feature",
    "TF.C76_small_file"
   ],
   "note": "The wire format of bincode 2.0.1 and what its decoder claims are modelled from its specification and from memory of its source (not in the repository)."
  },
  {
   "property": "C77",
   "status": "proved",
   "theorems": [
    "TF.C77_args",
    "TF.C77_ret",
    "TF.C77_tells_apart",
    "TF.C77_ret_tells_apart",
    "TF.C77_layout",
    "TF.C77_pieces",
    "TF.C77_names",
    "TF.C77_display",
    "TF.C77_replay",
    "TF.C77_ambiguous",
    "TF.C77_tuple"
   ],
   "note": "`core::fmt::builders` is modelled from memory of its source (not in the repository). The `Debug` of a value is a parameter, taken to succeed."
  },
  {
   "property": "C78",
   "status": "proved",
   "theorems": [
    "TF.C78_parameters",
    "TF.C78_only_generic_args",
    "TF.C78_order",
    "TF.C78_arguments",
    "TF.C78_combined",
    "TF.C78_deserialize"
   ],
   "note": "`syn` prints lifetimes before other parameters and arguments (from memory of its source). Whether bounds are met is C82."
  },
  {
   "property": "C79",
   "status": "proved",
   "theorems": [
    "TF.C79_accepted",
    "TF.C79_meaning",
    "TF.C79_order",
    "TF.C79_every",
    "TF.C79_texts",
    "TF.C79_or_panics",
    "TF.C79_without_parentheses",
    "TF.C79_impl",
    "TF.C79_as_parsed"
   ],
   "note": "darling 0.24 is not in the repository; `from_list` and its readers of values are modelled from memory of its source. Whether `rename = name` without quotes is read is a parameter, as is the syntax of Rust."
  },
  {
   "property": "C80",
   "status": "proved",
   "theorems": [
    "TF.C80_same",
    "TF.C80_same_inside",
    "TF.C80_same_result",
    "TF.C80_same_auto",
    "TF.C80_captured_auto",
    "TF.C80_captured",
    "TF.C80_super",
    "TF.C80_args",
    "TF.C80_nested",
    "TF.C80_nested_target"
   ],
   "note": "Resolution is modelled as documented in the Rust Reference, for types; visibility and macros are left out. Stated for paths; a type is as good as the paths in it."
  },
  {
   "property": "C81",
   "status": "proved",
   "theorems": [
    "TF.C81_sound",
    "TF.C81_complete",
    "TF.C81_parameter",
    "TF.C81_shown",
    "TF.C81_shown_named",
    "TF.C81_shown_plain",
    "TF.C81_hidden",
    "TF.C81_stated",
    "TF.C81_result",
    "TF.C81_rows",
    "TF.C81_rows_named",
    "TF.C81_values",
    "TF.C81_fewer",
    "TF.C81_no_values",
    "TF.C81_no_corpus",
    "TF.C81_phantom"
   ],
   "note": "The choice between an inherent function and one of a trait is as in the Rust Reference: inherent if the bounds of its impl are known to hold. Lifetimes, constants, normalisation of associated types are left out."
  },
  {
   "property": "C82",
   "status": "proved",
   "theorems": [
    "TF.C82_declared",
    "TF.C82_every",
    "TF.C82_given",
    "TF.C82_serialize_stated",
    "TF.C82_bounds_known",
    "TF.C82_bounds_stated",
    "TF.C82_generic",
    "TF.C82_plain",
    "TF.C82_parameters",
    "TF.C82_complete",
    "TF.C82_projected",
    "TF.C82_names"
   ],
   "note": "`serde_derive` 1.0 (bound.rs) is modelled from memory. Arguments with attributes and conversions are left out."
  },
  {
   "property": "C83",
   "status": "proved",
   "theorems": [
    "TF.C83_same_fuzzing",
    "TF.C83_panic_at_worst",
    "TF.C83_command",
    "TF.C83_warning_empty",
    "TF.C83_warning_last_lines"
   ],
   "note": "Of the warning only the part with the output is modelled. That AFL behaves the same without its own interface is not claimed."
  },
  {
   "property": "C84",
   "status": "proved",
   "theorems": [
    "TF.C84_kept",
    "TF.C84_for_good",
    "TF.C84_consolidated",
    "TF.C84_origin"
   ],
   "note": "Assumptions, in `Deed.Does`: a fuzzer writes to the output directory of its target only and keeps earlier findings (AFL may delete an old session when it is not resumed: this counts as a reset); SHA-1 does not collide on the inputs in question. Runs of the command do not overlap with recordings; concurrent recordings are C03 and C86, overlapping runs C87."
  },
  {
   "property": "C85",
   "status": "proved",
   "theorems": [
    "TF.C85_lossy",
    "TF.C85_valid",
    "TF.C85_ascii",
    "TF.C85_newline",
    "TF.C85_entry",
    "TF.C85_ends",
    "TF.C85_lines",
    "TF.C85_heading_plain",
    "TF.C85_heading",
    "TF.C85_heading_panics"
   ],
   "note": "The text of a status is arbitrary. What `cargo llvm-cov` prints is left out. That the harness is killed in the middle of a character at the time limit is what makes ill-formed output ordinary."
  },
  {
   "property": "C86",
   "status": "proved",
   "theorems": [
    "TF.Par.C86_no_failure",
    "TF.Par.C86_kept",
    "TF.Par.C86_untouched",
    "TF.Par.C86_all_recorded",
    "TF.Par.C86_same_result",
    "TF.Par.C86_finishes",
    "TF.Par.C86_sequential",
    "TF.Par.C86_targets",
    "TF.Par.C86_harmless",
    "TF.Par.C86_in_the_way"
   ],
   "note": "System calls are atomic and succeed if they can (failures: C04, C01); descriptors stand for paths, since nobody removes files of a corpus. A consolidation writes its inputs the same way."
  },
  {
   "property": "C87",
   "status": "proved",
   "theorems": [
    "TF.Par.C87_never_lost",
    "TF.Par.C87_no_failure",
    "TF.Par.C87_tests",
    "TF.Par.C87_consolidated",
    "TF.Par.C87_untouched",
    "TF.Par.C87_targets",
    "TF.Par.C87_fuzzer_loses",
    "TF.Par.C87_result",
    "TF.Par.C87_same_result",
    "TF.Par.C87_storage_runs",
    "TF.Par.C87_sequential"
   ],
   "note": "`C87_fuzzer_loses` is the counterexample with a fuzzer (finding 36). Reading a file is one step; `read_dir` returns all entries that exist throughout. A finished consolidation is claimed to be complete, not that it succeeds: two consolidations of one target can make each other fail."
  },
  {
   "property": "C88",
   "status": "proved",
   "theorems": [
    "TF.C88_prefix",
    "TF.C88_mono",
    "TF.C88_displays",
    "TF.C88_plain_text",
    "TF.C88_plain",
    "TF.C88_cut",
    "TF.C88_cut_text",
    "TF.C88_cancel",
    "TF.C88_all_show",
    "TF.C88_safe_iff",
    "TF.C88_heading_panics"
   ],
   "note": "The crates are not among the sources in /repo; the model follows these versions from knowledge. This discharges the hypotheses on `vis` in C44, C45, C83 and C85 for the function the code uses."
  },
  {
   "property": "C89",
   "status": "proved",
   "theorems": [
    "TF.C89_found",
    "TF.C89_found_call",
    "TF.C89_replayed",
    "TF.C89_difference",
    "TF.C89_fuzzer_environment",
    "TF.C89_replay_environment",
    "TF.C89_verdicts",
    "TF.C89_reproduced",
    "TF.C89_crashes",
    "TF.C89_kept"
   ],
   "note": "That the exit status of a harness process says whether the test returned (`Genuine`) and that crash files are inputs on which a fuzzed process died are hypotheses: libtest and AFL are not modelled. `C89_difference` is finding 37."
  },
  {
   "property": "C90",
   "status": "proved",
   "theorems": [
    "TF.C90_names",
    "TF.C90_skips",
    "TF.C90_skip",
    "TF.C90_skip_bincode",
    "TF.C90_none",
    "TF.C90_forgotten",
    "TF.C90_one_sided",
    "TF.C90_moved",
    "TF.C90_flags_if",
    "TF.C90_kept",
    "TF.C90_flatten",
    "TF.C90_omitted",
    "TF.C90_misread"
   ],
   "note": "serde_derive is not among the sources in /repo. `Default`, `with` and other functions named by attributes are parameters of the model. serde_derive looks at `flatten` on fields that are written when writing and on fields that are read when reading; what is read with `flatten` is not modelled, only that nothing can be written (`C90_flatten`), and that on a skipped argument it does nothing (`C90_kept`). `C90_one_sided` is finding 39, `C90_omitted` and `C90_misread` are finding 45."
  },
  {
   "property": "C91",
   "status": "proved",
   "theorems": [
    "TF.C91_from_ref",
    "TF.C91_plain",
    "TF.C91_generic",
    "TF.C91_instead"
   ],
   "note": "Coherence is not modelled: that `Y` cannot have both implementations of `FromRef<X>` is not used."
  },
  {
   "property": "C92",
   "status": "proved",
   "theorems": [
    "TF.C92_fields",
    "TF.C92_references",
    "TF.C92_result",
    "TF.C92_self",
    "TF.C92_receiver",
    "TF.C92_in_scope"
   ],
   "note": "That the compiler rejects elided lifetimes in fields and associated types is in the specification. Types made by user macros are tokens. `C92_result` is finding 41."
  },
  {
   "property": "C93",
   "status": "proved",
   "theorems": [
    "TF.C93_decoded",
    "TF.C93_unique",
    "TF.C93_typed",
    "TF.C93_generated",
    "TF.C93_every_value"
   ],
   "note": "That decoding yields values of the fields' types is a hypothesis (the type checker sees to it). `C93_generated` assumes that the format gives back what it wrote, as C13 does."
  },
  {
   "property": "C94",
   "status": "proved",
   "theorems": [
    "TF.C94_checks",
    "TF.C94_borrowed_result",
    "TF.C94_static",
    "TF.C94_independent"
   ],
   "note": "Lifetimes of the signature are compared, not regions inside of the call; variance is not modelled: lifetimes in the result are taken to have to be `'static`, as `args_ret_ty` says. `C94_borrowed_result` and `C94_static` are finding 42."
  },
  {
   "property": "C95",
   "status": "proved",
   "theorems": [
    "TF.C95_postcard",
    "TF.C95_bincode",
    "TF.C95_arguments",
    "TF.C95_interrupted",
    "TF.Conc.C95_concurrent",
    "TF.Conc.C95_split"
   ],
   "note": "`C95_concurrent` is about writes that the system does not split (`WholeSteps`); `C95_split` shows why, it is finding 43. The lengths of values are below 2^64."
  },
  {
   "property": "C96",
   "status": "proved",
   "theorems": [
    "TF.C96_directories",
    "TF.C96_corpus",
    "TF.C96_confused"
   ],
   "note": "C69 has as a hypothesis that everything recorded is read as recorded; C96 is what remains without it. `C96_confused` is finding 44."
  },
  {
   "property": "C97",
   "status": "proved",
   "theorems": [
    "TF.C97_begins",
    "TF.C97_removed",
    "TF.C97_added"
   ],
   "note": "The impl and the conversions stay the same. `PhantomData` is taken to be serialised as nothing."
  },
  {
   "property": "C98",
   "status": "proved",
   "theorems": [
    "TF.C98_coverage",
    "TF.C98_fuzzer",
    "TF.C98_build",
    "TF.C98_loop",
    "TF.C98_every_target"
   ],
   "note": "`Succeeded`: the last action is the command, and the system answered that it succeeded. The fuzzing loop itself is `Model/Fuzz` (C37-C40, C83)."
  },
  {
   "property": "C99",
   "status": "proved",
   "theorems": [
    "TF.C99_items",
    "TF.C99_dangling",
    "TF.C99_attributes",
    "TF.C99_parameters"
   ],
   "note": "What `cfg` does is in the specification (`Compiled`): items with an attribute that does not hold are removed after the macro has run, as the compiler does for what is inside of an item with an attribute macro. `C99_dangling` is finding 46."
  },
  {
   "property": "C100",
   "status": "proved",
   "theorems": [
    "TF.C100_compiles",
    "TF.C100_plain",
    "TF.C100_const",
    "TF.C100_other_builds"
   ],
   "note": "What the compiler says is in the specification (`QualAccepted`): no calls of functions that are not `const` in a `const` function, `unsafe` calls in `unsafe` blocks, the type of a call of an `async` function, and where inner attributes may stand. `syn` collects inner attributes with the others."
  },
  {
   "property": "C101",
   "status": "proved",
   "theorems": [
    "TF.C101_exactly",
    "TF.C101_switched_on",
    "TF.C101_again",
    "TF.C101_fuzzed"
   ],
   "note": "`RunsTest` says what the executable is: run with the name of the test, it does what the generated test does, in the environment the command gives it. That libtest runs exactly the test named after `--exact`, and nothing if there is none, is part of it. In the generating process input/output does not fail. `C101_switched_on` and `C101_again` are findings 50 and 51."
  },
  {
   "property": "C102",
   "status": "proved",
   "theorems": [
    "TF.C102_quoting",
    "TF.C102_plain",
    "TF.C102_layout",
    "TF.C102_tells_apart",
    "TF.C102_lines",
    "TF.C102_run",
    "TF.C102_versions"
   ],
   "note": "The formatters of `Vec`, tuples, `str`, `Path` and `char` are modelled after `core` and `std`; which characters are printable is a parameter, and so is every theorem for all such parameters (that grapheme extenders are escaped only in some positions is left out). Versions are shown as text; that versions that were read from a text have different texts is `C102_versions`, by C71."
  },
  {
   "property": "C103",
   "status": "proved",
   "theorems": [
    "TF.C103_ignored",
    "TF.C103_only_shown"
   ],
   "note": "`C103_ignored` is an equation of whole runs, for every system. Where the objects come from is C32_run. Finding 53."
  },
  {
   "property": "C104",
   "status": "proved",
   "theorems": [
    "TF.C104_causes",
    "TF.C104_early",
    "TF.C104_loop",
    "TF.C104_safe"
   ],
   "note": "Model/Run.lean, Spec/Panics.lean, Props/Panics.lean"
  },
  {
   "property": "C105",
   "status": "proved",
   "theorems": [
    "TF.C105_crate",
    "TF.C105_rejected",
    "TF.C105_targets",
    "TF.C105_warnings",
    "TF.C105_build"
   ],
   "note": "What `prettyplease` makes of an expansion is not modelled. `option_env!` gives the value with which the macros were compiled; cargo compiles them again when it changes. The name is that of the crate (`a_b`), not of the package (`a-b`)."
  },
  {
   "property": "C106",
   "status": "proved",
   "theorems": [
    "TF.C106_cut",
    "TF.C106_page",
    "TF.C106_screen",
    "TF.C106_fresh",
    "TF.C106_too_small",
    "TF.C106_off",
    "TF.C106_colour_leaks",
    "TF.C106_headings_plain"
   ],
   "note": "`strip_ansi_escapes` as in C45. Other control sequences in the output of fuzzers (afl-fuzz writes some) are not covered."
  },
  {
   "property": "C107",
   "status": "proved",
   "theorems": [
    "TF.C107_commands",
    "TF.C107_frame",
    "TF.C107_output",
    "TF.C107_corpus",
    "TF.C107_outcome",
    "TF.C107_refines"
   ],
   "note": "`C107_commands` assumes that no target occurs twice (no two with the same executable and name): Cargo names no executable twice, and libtest lists no test twice. Fuzzers change files between iterations, not while a directory is being made. In whole commands (C98, C104) the loop is one step of the system (`Sys.loop`, `Sys.fuzzed`); C108 ties it to this loop."
  },
  {
   "property": "C108",
   "status": "proved",
   "theorems": [
    "TF.C108_end_to_end"
   ],
   "note": "assumes that generation runs and fuzzers remove nothing and put no files where output directories are to be, and no I/O errors. The case in Props/FuzzEnd builds a system whose loop is the real one."
  },
  {
   "property": "C109",
   "status": "proved",
   "theorems": [
    "TF.C109_warnings",
    "TF.C109_all_failed",
    "TF.C109_last"
   ],
   "note": "assumes that no target occurs twice, as C107. Which lines of the fuzzer's output are in the warning is in C83 (`C83_warning_last_lines`)."
  },
  {
   "property": "C110",
   "status": "proved",
   "theorems": [
    "TF.C110_lists",
    "TF.C110_one",
    "TF.C110_many",
    "TF.C110_replay",
    "TF.C110_consolidate",
    "TF.C110_reset"
   ],
   "note": "the converse of C98 and C32_run. For the modes that look at files, no I/O errors are assumed; that headings can be made is an assumption (for ASCII names it follows from C45; for others see C85 and C104). Readability of directories is not modelled."
  }
 ]
}