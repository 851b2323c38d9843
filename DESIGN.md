# Formal model of test-fuzz in Lean 4: design

The model lives in `lean/Verif`; everything is in namespace `TF`.

* `Verif/Rust/*` – the small part of Rust and the operating system that the code relies on: outcomes, strings
  as lists of characters, UTF-8, environments, and a file system with failures and crashes.
* `Verif/Model/*` – the model of /repo, function by function. Each definition cites file and lines.
* `Verif/Spec/*` – small specifications, independent of the model's helpers, used in statements.
* `Verif/Lemmas/*` – helper lemmas.
* `Verif/Props/*` – the property theorems (`Cnn_...`), each with a concrete case that meets its hypotheses beside
  it (an `example`, or a demo namespace that instantiates all parameters).

`properties.jsonl` lists the properties, `MANIFEST.json` the theorems of each, `seeded/LOG.jsonl` the mutation
tests.

How to read `seeded/LOG.jsonl`:

* It has a line for every edit after which the edited definition still compiled, whatever the result. Edits that did not
  compile (943 of the generated ones) say nothing about theorems and have no line.
* Until the revision that added this paragraph the log was incomplete. It left out 154 edits that all theorems survived, and 13
  after which only examples failed. 46 of the 154 had not been explained. They are in the log now.
* `claim_broken` was not determined by hand for edits that were caught: it lists the properties whose theorems depend on
  something that failed. A proof can also fail although its statement is still true, so this overstates what was shown.
* `note` says "survived" if all theorems still held. `claim_broken` is then the reason why no claim is broken, or "not
  determined" if none has been found. The latter are gaps, or may be.
* Reasons used to be given per definition rather than per edit. When the survivors were read one by one, eleven reasons did not fit
  the edit: `package` looking up by name, `mustSucceed` not checking the status, `coverageWarning` (two), `pathExists` failing as
  "yes", `jobStep` not refusing directories, `tSerialize` being `Clone`, `observe` (one) and `internalApps` (three). The last four
  have a reason that fits now; the others were tried again. This is why C59 no longer assumes the result of
  `package`, and where `C28_unseen`, `C81_rows_named`, `C81_shown_named` and `C82_names` come from.
* `theorems_tightened` is filled in if the same edit survived earlier and was caught later, with theorems that fail now.
* Results are from the time of each attempt. Edits that were caught have not been tried again since.

## Modelling conventions

* `String`, `OsStr` and names of files are `List Char`; bytes are `List UInt8`; paths are lists of components.
* `Result` is data. A Rust panic (assert, unwrap, index or slice out of bounds, overflow, `unreachable!`) is the explicit
  outcome `panic`; `process::exit` and death of the process in the middle of an operation are outcomes too.
* `&mut` and I/O become state passing. Each primitive file operation is decided by an arbitrary `Plan`: it succeeds,
  fails, or kills the process, in the latter cases with an arbitrary part of its effect. Theorems quantify over plans.
* The order of directory entries is given by an arbitrary lister, over which theorems quantify.
* Other processes (cargo, AFL, test executables) are arbitrary: `Sys` for the command as a whole (a reaction that may
  depend on everything done so far), `Inp` for each iteration of the fuzzing loop. Theorems hold for all of them.
* SHA-1 is defined (FIPS 180-4), but theorems only use the length of its result; where distinct data must get distinct
  names, absence of collisions *among the data involved* is a hypothesis.
* The user's code (target, `From`/`Into` conversions, serde impls, `Debug`) is a parameter. Laws it must satisfy are
  hypotheses of the theorem that uses them.
* The macro is a function from parsed input to a small language of generated code with an interpreter.
* Machine integers are natural numbers with explicit overflow checks where the code can overflow.
* Logs (`Act`, `Ev`, `FState.log`) record what the code does; no decision of the model depends on them.

## Properties

For each property: what is modelled, how it is proved, remarks, and the theorems. The letters in parentheses are the
axioms the theorem depends on, as reported by `#print axioms`: `p` = `propext`, `q` = `Quot.sound`, `c` =
`Classical.choice`, `–` = none.

**C01 Recording stores exactly the bytes, under a content-derived name** – proved.  
Modelled: Model/Runtime `writeData` (runtime/src/lib.rs:189-201) over Rust/Fs.  
Proof: computation on file-system updates for every plan of failures; the name is compared with an independent `hexDecode`.  
Remark: `C01_record_succeeds` shows that the success hypothesis is met on every file system where the directory can be created.  
Theorems: `C01_record_stores_data` (pq), `C01_record_succeeds` (pq)

**C02 A corpus is the set of distinct recorded inputs** – proved.  
Modelled: the same, folded over a list of inputs.  
Proof: induction on the list; permutations and repetitions as corollaries.  
Remark: "No collision" is assumed only of the inputs of the sequence and of nothing else.  
Theorems: `C02_corpus_is_set` (pq), `C02_order_independent` (pq), `C02_idempotent` (pq)

**C03 Concurrent recordings of the same input do not corrupt it** – proved.  
Modelled: Model/ConcWrite: interleaving of open/truncate and positioned writes of any sizes, any number of writers.  
Proof: inductive invariant over all interleavings.  
Remark: Writers write the same data to the same file; the directory exists already.  
Theorems: `C03_concurrent_recordings` (pq)

**C04 An interrupted recording damages at most the file being written and heals** – proved.  
Modelled: `writeData` under plans with a crash in the middle of an operation; instrumented calls (Model/Instrument) whose recordings fail.  
Proof: frame and prefix lemmas for every plan; then C02 on the healed state; `C04_call`: by induction over what a call records, against an inductive specification of recordings up to the first failure.  
Theorems: `C04_call` (pcq), `C04_stored_or_panics` (pq), `C04_interrupted` (pcq), `C04_rerun_heals` (pq), `C04_tree` (pcq)

**C05 cargo test-fuzz looks where the instrumented target wrote** – proved.  
Modelled: Model/Dirs `pathFromArgsType`, `pathFromTarget`; Model/Targets.  
Proof: lemmas about the first occurrence of a substring.  
Remark: `C05_disagree_without_proviso` proves that the proviso on `_fuzz__` is needed.  
Theorems: `C05_writer_reader_agree` (pq), `C05_disagree_without_proviso` (pq), `C05_witness` (–)

**C06 Artifacts of different targets, kinds and runs never share a directory** – proved.  
Modelled: all functions of internal/src/dirs.rs (Model/Dirs).  
Proof: injectivity of path construction on names.  
Remark: `C06_dash_underscore_share`: crates `a-b` and `a_b` do share a directory; the theorem takes crate names after the code's replacement of `-`.  
Theorems: `C06_id` (p), `C06_place` (pq), `C06_no_metadata` (pq), `C06_slash_in_id` (pq), `C06_directories_apart` (pq), `C06_findings_inside` (p), `C06_dash_underscore_share` (p)

**C07 Recording happens only when it should** – proved.  
Modelled: Model/Instrument: the macro as a function to a small language of statements, with an interpreter.  
Proof: case analysis for all options, environments and bodies.  
Theorems: `C07_not_due` (pcq), `C07_due` (pcq)

**C08 Fuzzing, replaying and displaying never write to the corpus through instrumentation** – proved.  
Modelled: Model/Command (environments of all spawned processes), Model/Run, Model/Instrument.  
Proof: the environment of every process in the record of actions is computed, then C07 is applied.  
Theorems: `C08_fuzzer_environment` (pq), `C08_harness_environment` (pq), `C08_harness_records_nothing` (pcq), `C08_fuzzer_records_nothing` (pcq), `C08_replay_records_nothing` (pcq), `C08_records_nothing` (pcq)

**C09 Meaning of the TEST_FUZZ_* switches** – proved.  
Modelled: Model/Runtime `enabled`.  
Proof: direct, against a separate specification of "on"; variables shown different by injectivity.  
Theorems: `C09_switches` (pq), `C09_variables_distinct` (–)

**C10 The harness is inert in a normal `cargo test`** – proved.  
Modelled: Model/Instrument harness (`entry`) with the process-wide "hint printed" state.  
Proof: interpreter, for all options; induction on the list of harnesses for the hint.  
Theorems: `C10_inert` (pq), `C10_hint_once` (pq)

**C11 The harness calls the target exactly once iff the input decodes** – proved.  
Modelled: the same.  
Proof: interpreter; number of calls counted in the event log.  
Theorems: `C11_called_once` (pcq), `C11_undecodable` (pcq), `C11_display_only` (pq)

**C12 A panic in the target is a crash when fuzzing and a test failure when replaying** – proved.  
Modelled: the same, with panic hooks.  
Proof: interpreter; target is an arbitrary sequence of caught panics followed by an ending.  
Theorems: `C12_fuzzing_aborts` (pcq), `C12_fuzzing_succeeds` (pcq), `C12_replaying_fails` (pcq), `C12_replaying_succeeds` (pcq)

**C13 What was recorded is what is replayed** – proved.  
Modelled: Model/Args, Model/Instrument, Model/PostcardArgs.  
Proof: composition of C14, the codec law and the macro; then instantiated with the postcard model.  
Remark: `C13_round_trip` takes a codec with a round-trip law; `C13_postcard` proves the law for the default format. The user's `convert`s are assumed mutually inverse on the values concerned.  
Theorems: `C13_postcard` (pcq), `C13_round_trip` (pcq), `C13_recordable` (pcq), `C13_hidden` (pcq), `C13_record_replay` (pcq)

**C14 Argument adaptation is type-correct and loss-free** – proved.  
Modelled: Model/Args: types, generated expressions as terms with an evaluator.  
Proof: induction on the nesting of types.  
Theorems: `C14_loss_free` (pq), `C14_field_type` (pq)

**C15 A `convert` that is not used is rejected** – proved.  
Modelled: Model/Args: `Conversions` map and "used" marks; Model/Syntax: tokens of types.  
Proof: induction over the arguments; `C15_same_key`: the tokens of a type can be read in one way only (mutual induction over types, with what may follow), so that conversions are for types and not for texts.  
Remark: `C15_not_behind_references`: a conversion for `X` is not applied to an argument of type `&X`. `C15_same_key`, `C15_types` and `C15_last_for_type` are for types of the forms listed in Spec/TyText; these include `dyn` and `impl` with traits and lifetimes, but not function types, bindings or bounds in generic arguments, nor `?` or `for<..>` in bounds.  
Theorems: `C15_all_used` (pcq), `C15_last_wins` (pcq), `C15_attributes` (pcq), `C15_not_behind_references` (–), `C15_same_key` (pq), `C15_types` (pcq), `C15_last_for_type` (pcq)

**C16 Encoding then decoding returns the value** – proved.  
Modelled: Model/Postcard.  
Proof: mutual induction on schemas and values; exact condition for the sliding buffer; equivalence with grammars for writing and reading (Spec/PostcardWire).  
Remark: The wire format of postcard 1.1.3 is modelled from its specification (source not in the repository). Two readings of the sliding buffer are covered.  
Theorems: `C16_round_trip` (pq), `C16_long_string` (pq), `C16_prefix_free` (pq), `C16_read_stable` (pcq), `C16_prefix_only` (pcq), `C16_writes` (pcq), `C16_reads` (pcq)

**C17 Reader and writer agree on the format** – proved.  
Modelled: Model/Format: cfg selection and build script.  
Proof: case analysis over all feature selections.  
Theorems: `C17_same` (–), `C17_selected` (–), `C17_both` (–)

**C18 Every auto-generated value is used** – proved.  
Modelled: Model/Auto `argsFromAutos`, Model/Instrument (the generated test).  
Proof: arithmetic on list indices; the files after the generated test are computed.  
Theorems: `C18_every_value_used` (pcq), `C18_only_values` (pcq), `C18_recorded` (pq), `C18_off` (pq)

**C19 Number of auto-generated tuples** – proved.  
Modelled: the same, with an explicitly panicking index and remainder.  
Proof: the same.  
Theorems: `C19_number` (pcq), `C19_no_arguments` (p), `C19_none` (pcq), `C19_total` (pcq)

**C20 Auto-generated numbers are right at every width** – proved.  
Modelled: Model/Auto: integers with explicit overflow checks at every width; Model/Floats: binary floating-point numbers of every precision and exponent range, with rounding.  
Proof: arithmetic for all widths ≥ 3; rounding is characterised as nearest, ties to even (`C20_rounding`), formats by their one and their maximum (`IsFormat`), and the values follow for every format.  
Theorems: `C20_integers` (pcq), `C20_default_only` (p), `C20_nothing` (p), `C20_rounding` (pcq), `C20_floats` (pcq), `C20_f32_f64` (pcq)

**C21 Missing corpora, and only those, are auto-generated and all failures are reported** – proved.  
Modelled: Model/Run `autoGenerateCorpora`.  
Proof: induction over the targets, for every reaction of the generating processes.  
Theorems: `C21_generation` (pcq), `C21_stops` (p), `C21_all_there` (pcq)

**C22 Target discovery is exact** – proved.  
Modelled: Model/Targets: parsing the listing.  
Proof: list and string lemmas against a line specification.  
Theorems: `C22_discovery_exact` (pq), `C22_unreadable_is_error` (pq), `C22_executables` (p), `C22_failing_executable` (p)

**C23 The harness that is run is the one that was listed** – proved.  
Modelled: Model/Targets, Model/Run: names passed to processes in the record of actions.  
Proof: the names in every action of a run are computed.  
Theorems: `C23_harness_process` (pq), `C23_only_listed` (pcq), `C23_loop` (p), `C23_declared` (pq), `C23_distinct` (pq)

**C24 Target selection** – proved.  
Modelled: Model/Targets: filters and flattening.  
Proof: list lemmas; `contains` against the specification "some split exists".  
Theorems: `C24_selection` (pq), `C24_exact_selects_less` (pq), `C24_no_empty_executable` (pq), `C24_flatten` (pq)

**C25 Version compatibility check** – proved.  
Modelled: Model/Versions: caret requirement of crate `semver`.  
Proof: case analysis against a separate notion of compatibility class.  
Remark: `semver` is modelled from its documentation.  
Theorems: `C25_release_check` (pcq), `C25_missing_dependency` (–), `C25_prerelease_tool` (pq), `C25_all_checked` (pq), `C25_requirement` (pcq), `C25_precedence_linear` (pcq), `C25_check` (pcq), `C25_run` (pcq)

**C26 Instrumentation choice** – proved.  
Modelled: Model/Command, Model/Run: options.  
Proof: case analysis over all options.  
Theorems: `C26_never_both` (p), `C26_fuzzing_iff` (pq), `C26_coverage_iff` (pq), `C26_invalid_rejected` (pcq), `C26_valid_accepted` (pq)

**C27 --list and --no-run are read-only** – proved.  
Modelled: Model/Run `runWithoutExitCode`.  
Proof: the record of actions of a run with the option contains none of the forbidden ones.  
Theorems: `C27_read_only` (pq), `C27_list_prints` (pq)

**C28 Reset removes exactly the selected targets' fuzzing data** – proved.  
Modelled: Model/Storage, Rust/Fs.  
Proof: induction over targets, frame lemmas, all plans; invariants kept by every operation, also by parts of it (Props/Tree, Props/Rerun).  
Theorems: `C28_only_removes` (pq), `C28_rerun` (pcq), `C28_reset_removes` (pcq), `C28_reset_touches_only_output` (pcq), `C28_reset_keeps_corpora` (pcq), `C28_reset_succeeds` (pcq), `C28_unseen` (pcq)

**C29 Consolidation moves everything to the corpus** – proved.  
Modelled: the same.  
Proof: induction over entries and targets.  
Theorems: `C29_files` (pcq), `C29_consolidate` (pcq), `C29_consolidate_succeeds` (pcq), `C29_other_targets_untouched` (pcq), `C29_tree` (pcq)

**C30 Consolidation never loses an input** – proved.  
Modelled: the same.  
Proof: invariant over all plans and crash points; `C30_rerun`: what is left is compared with the exact set of files after a consolidation (`C29_files`).  
Theorems: `C30_rerun` (pcq), `C30_stuck` (pcq), `C30_no_input_lost` (pcq), `C30_reset_all_overrides_consolidate` (p)

**C31 When --consolidate-all succeeds** – proved.  
Modelled: the same.  
Proof: an equivalence; both directions from the theorems on consolidate and reset.  
Remark: The expectation (any number of targets) is false of the code. The boundary is proved: `C31_consolidate_all_exactly` is an equivalence, `C31_consolidate_all_never_finishes` says what happens beyond it.  
Theorems: `C31_consolidate_all_exactly` (pcq), `C31_consolidate_all_never_finishes` (pcq), `C31_consolidate_all_succeeds` (pcq)

**C32 Each stored input is reported exactly once** – proved.  
Modelled: Model/Run `forEachEntry`, `runWithoutExitCode`.  
Proof: induction over the directory entries, any order; `C32_run` over all selected targets, through the whole command.  
Remark: What a harness does to the file system (`Sys.leaves`) is arbitrary, except that it does not change the directory of stored inputs (`Untouched`, `Spared`; not assumed for objects that are only shown).  
Theorems: `C32_directory` (pq), `C32_run` (pcq), `C32_objects` (p), `C32_missing` (p), `C32_unseen` (–), `C32_once` (pq)

**C33 Crashing or hanging inputs do not stop a replay** – proved.  
Modelled: the same; a harness is a process with a time at which it closes its standard error (`HProc`), observed with the time limit of the options.  
Proof: the same.  
Remark: A harness that ends at exactly the time limit is treated as ending in time; the code may do either. A harness that closes standard error but never exits blocks `wait`; it is excluded by the hypothesis that harnesses can be waited for (`HarnessesRun`).  
Theorems: `C33_survives` (pq)

**C34 At most N fuzzers, at most one per target** – proved.  
Modelled: Model/Fuzz: the loop as a step function with arbitrary input.  
Proof: inductive invariant over all executions.  
Theorems: `C34_cpus` (pcq), `C34_at_most_cpus_fuzzers` (pcq), `C34_slot_is_target` (pcq), `C34_running_count` (pcq)

**C35 The scheduler's internal assertions hold** – proved.  
Modelled: the same; every assertion, index and unreachable! is an explicit panic.  
Proof: inductive invariant over all executions.  
Remark: With the UI, `C35_no_panic_with_ui` assumes ASCII output and a terminal that is there (see C45).  
Theorems: `C35_loop_does_not_panic` (pcq), `C35_no_panic_with_ui` (pcq)

**C36 Sufficient cpus: each target is fuzzed once, then the command ends** – proved.  
Modelled: the same.  
Proof: invariants over executions.  
Theorems: `C36_started_in_order` (pcq), `C36_all_started_before_waiting` (pcq), `C36_done` (pcq), `C36_ends_when_all_ended` (pcq)

**C37 Time slicing is round-robin** – proved.  
Modelled: the same; executions without end.  
Proof: invariant on the log; `C37_fair_exactly`: if no fuzzer runs for ever, each target fails or is started again and again, just if there are never fewer targets left than cpus (from the invariant, C38 and the growth of the number of considerations).  
Theorems: `C37_no_starvation` (pcq), `C37_fair_exactly` (pcq), `C37_round_robin` (pcq)

**C38 When fuzzers' exits are noticed** – proved.  
Modelled: the same.  
Proof: ranking argument for one direction; an invariant (running and failed targets are disjoint) for the other; an explicit infinite execution.  
Remark: The expectation is false of the code. The boundary is proved: `C38_waits_exactly` is an equivalence, `C38_starves` and `C38_livelock` say what happens beyond it, `C38_livelock_reachable` that this occurs.  
Theorems: `C38_starves` (pcq), `C38_waits_exactly` (pcq), `C38_livelock_reachable` (pcq), `C38_waits_within_one_pass` (pcq), `C38_livelock` (pcq)

**C39 First run starts from the corpus, later runs resume** – proved.  
Modelled: Model/Fuzz and Model/Command.  
Proof: invariant on the log.  
Theorems: `C39_first_then_resume` (pcq), `C39_single` (pq)

**C40 Failed targets are never restarted and all-failed is an error** – proved.  
Modelled: Model/Fuzz.  
Proof: invariant on the log.  
Theorems: `C40_all_failed` (pcq), `C40_failure_does_not_stop_others` (pcq), `C40_failed_never_restarted` (pcq)

**C41 Exit-code contract** – proved.  
Modelled: Model/Fuzz, Model/Run `run`.  
Proof: case analysis on all endings of the loop.  
Theorems: `C41_loop_iterates` (pq), `C41_reach` (pcq), `C41_exit_only_if` (pcq), `C41_exit_if` (pcq), `C41_endings` (pcq), `C41_normal_end` (pcq), `C41_status` (pcq), `C41_plain_status` (pcq)

**C42 Output processing does not depend on chunking** – proved.  
Modelled: Model/Fuzz `readLines`.  
Proof: induction over the chunks.  
Theorems: `C42_chunking` (pcq), `C42_independent_of_chunking` (pcq), `C42_in_the_loop` (pcq)

**C43 Output is attributed to the right target** – proved.  
Modelled: Model/Fuzz: printing.  
Proof: invariant on the log of printed lines.  
Theorems: `C43_indications` (pcq), `C43_under_own_heading` (pcq), `C43_all_lines_printed` (pcq), `C43_ui_shows_own_lines` (pcq)

**C44 The UI fits the terminal** – proved.  
Modelled: Model/Ui `refresh`.  
Proof: arithmetic; induction over the children.  
Theorems: `C44_refresh_fits` (pcq), `C44_refresh_succeeds` (pcq)

**C45 Truncation to the terminal width** – proved.  
Modelled: Model/Ui `prefixWithWidth`, `divider`.  
Proof: binary-search invariant; every position is probed for some width.  
Remark: The expectation that it never panics is false of the code for text that is not ASCII. `C45_truncation` and `C45_divider` hold for all text, `C45_safe_iff` is the boundary. Any monotone count of visible bytes.  
Theorems: `C45_truncation` (pcq), `C45_panics` (pcq), `C45_safe_iff` (pcq), `C45_divider` (pcq), `C45_truncation_ascii` (pq), `C45_divider_ascii` (pq), `C45_panics_on_other_text` (pq)

**C46 Fuzzer command line** – proved.  
Modelled: Model/Command `fuzzCommand`.  
Proof: list computation.  
Theorems: `C46_command_line` (pcq), `C46_environment` (pq), `C46_one_target` (pcq), `C46_loop` (pcq)

**C47 --timeout is converted to milliseconds without overflow** – proved.  
Modelled: the same, with an explicit overflow check.  
Proof: arithmetic; `C47_overflow` is the negation for larger values.  
Theorems: `C47_milliseconds` (pcq), `C47_overflow` (pcq)

**C48 serde combinators are transparent and round-trip** – proved.  
Modelled: Model/Combinators.  
Proof: induction on the nesting.  
Theorems: `C48_transparent` (pq), `C48_deserialize` (pcq), `C48_deserialize_fails` (pcq), `C48_round_trip` (pcq), `C48_references` (p)

**C49 Serialising a lock never blocks** – proved.  
Modelled: Model/Combinators with lock states.  
Proof: induction on the nesting.  
Theorems: `C49_error` (pq), `C49_error_iff` (pcq), `C49_released` (pq)

**C50 dont_care! and leak!** – proved.  
Modelled: Model/Utils.  
Proof: induction on the fields.  
Theorems: `C50_no_space` (p), `C50_reads` (pq), `C50_leak` (pcq), `C50_leak_local` (p)

**C51 Self is expanded everywhere** – proved.  
Modelled: Model/TypeUtils `expandSelf`.  
Proof: mutual structural induction against an independent notion of the meaning of a type.  
Remark: Exceptions proved: `C51_arguments_left`, `C51_constants_left`, `C51_inherent_panics`.  
Theorems: `C51_meaning` (pq), `C51_none_left` (pq), `C51_total` (pq), `C51_arguments_left` (p), `C51_constants_left` (p), `C51_inherent_panics` (p)

**C52 impl_generic_args are substituted simultaneously** – proved.  
Modelled: Model/TypeUtils: substitution.  
Proof: the same.  
Remark: Exceptions proved: `C52_projection_left`, `C52_const_left`.  
Theorems: `C52_meaning` (pq), `C52_meaning_path` (pq), `C52_success` (p), `C52_too_many` (p), `C52_positions` (pcq), `C52_projection_left` (p), `C52_const_left` (p)

**C53 Turbofish insertion only inserts `::`** – proved.  
Modelled: Model/TypeUtils: turbofish.  
Proof: induction on tokens.  
Remark: Exceptions proved: `C53_later_missed`, `C53_doubled`.  
Theorems: `C53_terminates` (pcq), `C53_only_marks` (pq), `C53_only_marks_path` (pq), `C53_erase` (pq), `C53_first_marked` (pq), `C53_first_marked_path` (pq), `C53_later_missed` (–), `C53_doubled` (–), `C53_qualified_marked` (–)

**C54 Generated module names** – proved.  
Modelled: Model/Expand `modIdent`.  
Proof: string lemmas.  
Remark: `C54_clash`: without the hypotheses two targets can get the same module.  
Theorems: `C54_name` (pq), `C54_name_exists` (p), `C54_distinct` (pq), `C54_distinct_renamed` (pq), `C54_clash` (–), `C54_listed` (pq)

**C55 Generated field names are distinct** – proved.  
Modelled: Model/Args: field names.  
Proof: induction over the arguments; decimal numerals are injective.  
Remark: `C55_clash` is the exception. `C55_crate` is about all uses of the macros in a crate.  
Theorems: `C55_distinct` (pcq), `C55_clash` (pq), `C55_crate` (pcq)

**C56 test_fuzz_impl preserves the impl** – proved.  
Modelled: Model/Expand `testFuzzImpl`.  
Proof: induction over the items.  
Theorems: `C56_items` (pq), `C56_function` (p), `C56_warning` (pq), `C56_untouched` (pq)

**C57 Recorded generic arguments can be displayed** – proved.  
Modelled: Model/Instrument, Model/Runtime, Model/Run.  
Proof: C02 for the generic-args directory.  
Theorems: `C57_shown` (pq)

**C58 Debug fallback shows the type** – proved.  
Modelled: Model/TryDebug.  
Proof: string lemmas.  
Theorems: `C58_exact` (pq)

**C59 Dependency versions are those of the executable's own package** – proved.  
Modelled: Model/Versions: package graph.  
Proof: lookup lemmas.  
Theorems: `C59_dependency_versions` (pcq), `C59_missing_is_error` (pq), `C59_unknown_is_error` (pcq)

**C60 Coverage environment points into the coverage target directory** – proved.  
Modelled: Model/Command: coverage environment.  
Proof: path lemmas.  
Theorems: `C60_paths` (pq), `C60_not_a_path` (pq), `C60_variables` (pcq), `C60_none` (–)

**C61 Command conversion preserves the command** – proved.  
Modelled: Model/Command `toExec`.  
Proof: induction over the changes of the environment.  
Theorems: `C61_same_child` (pcq)

**C62 Build command** – proved.  
Modelled: Model/Build.  
Proof: list computation, induction over messages.  
Theorems: `C62_command` (pcq), `C62_result` (pq), `C62_failure` (p), `C62_directory` (pcq), `C62_run` (p)

**C63 Retry helper** – proved.  
Modelled: Model/Retry.  
Proof: induction on the number of attempts.  
Theorems: `C63_retry` (pcq), `C63_success` (pcq), `C63_failure` (pcq)

**C64 Artifact directories and --manifest-path** – proved.  
Modelled: Model/Dirs as functions of environment and working directory.  
Proof: composition of the directory functions.  
Remark: The expectation is false of the code. `C64_exactly` is the boundary, `C64_ignored` says that the option has no influence.  
Theorems: `C64_same_workspace` (pq), `C64_wrong_workspace` (pq), `C64_ignored` (p), `C64_exactly` (pq)

**C65 Instrumentation does not change the target's behaviour** – proved.  
Modelled: Model/Instrument.  
Proof: interpreter, all options.  
Theorems: `C65_transparent` (pcq), `C65_call` (pcq)

**C66 Single-target operations touch nothing unless exactly one target is selected** – proved.  
Modelled: Model/Storage, Model/Run.  
Proof: case analysis on the number of targets.  
Theorems: `C66_single_target_only` (pcq)

**C67 When the macro succeeds** – proved.  
Modelled: Model/Expand.  
Proof: exact condition, by following the expansion; otherwise a panic, by induction over types, arguments and items.  
Theorems: `C67_succeeds` (pcq), `C67_fuzzing_builds` (p), `C67_harness_present` (pcq), `C67_or_panics` (p), `C67_impl_or_panics` (p), `C67_harness_iff` (pcq), `C67_coverage_warning` (pcq)

**C68 Lifetime parameters of the argument struct are filled** – proved.  
Modelled: Model/Expand.  
Proof: list lemmas.  
Theorems: `C68_lifetimes_filled` (pq), `C68_result` (p), `C68_result_meaning` (pq), `C68_field_meaning` (pcq), `C68_parameters_used` (pq), `C68_callee` (pcq)

**C69 From tests to replay, end to end** – proved.  
Modelled: Model/Instrument (calls in user programs), Model/Runtime, Model/Dirs, Model/Run.  
Proof: induction over the program for the files gained; composition of C05, C06, C11, C32.  
Remark: `hinj` assumes that SHA-1 does not collide on the recorded data. Instantiations of one generic target share a directory, which the statement takes into account (`Recorded`).  
Theorems: `C69_corpus` (pcq), `C69_replayed` (pcq)

**C70 Command line** – proved.  
Modelled: Model/Cli: the declarations of transition.rs and clap's parsing of them.  
Proof: the parser is proved equivalent to a grammar with a meaning (Spec/Cli), by induction over the arguments.  
Remark: clap is a dependency without source here; its algorithm is modelled from its documentation for the features these declarations use.  
Theorems: `C70_command_line` (pcq), `C70_otherwise_nothing` (pcq), `C70_only_as_subcommand` (pq), `C70_accepted_runs` (pq), `C70_everything_can_be_asked` (pcq), `C70_complaint` (pcq)

**C71 The text of versions** – proved.  
Modelled: Model/Semver: `Version::parse`, its display, `VersionReq::parse` for one comparator, `cargo_afl_version`.  
Proof: the parsers are proved equivalent to a grammar (Spec/Semver), by induction over the text with the loop state generalised.  
Remark: semver is a dependency without source here; modelled from memory of its parser. Standard output is taken after `from_utf8_lossy`.  
Theorems: `C71_parse` (pcq), `C71_unambiguous` (pcq), `C71_printed` (pcq), `C71_requirement` (pcq), `C71_cargo_afl` (pcq)

**C72 What the command does is decided by the options** – proved.  
Modelled: Model/Run `run`, `runWithoutExitCode`.  
Proof: the modes and what belongs to them are specified separately (Spec/Modes); case analysis of the dispatch, induction over the loops.  
Theorems: `C72_mode` (pcq), `C72_storage` (pcq)

**C73 Recorded names are SHA-1 in hexadecimal** – proved.  
Modelled: Model/Sha1.  
Proof: equivalence with FIPS 180-4 over lists of bits and `BitVec 32` (Spec/Sha1.lean).  
Remark: Collision freedom is not claimed: where a theorem needs it for the data at hand it is a hypothesis.  
Theorems: `C73_sha1` (pcq), `C73_recorded_name` (pcq)

**C74 Persistent mode** – proved.  
Modelled: Model/Instrument `persistentArgsEntry`, `fuzzInputs`, `runPersistent`.  
Proof: induction over the list of inputs, with what is known of one call (C11).  
Remark: `afl::fuzz!` is of the crate afl, which is not in the repository: it is modelled from its documentation as a loop over the inputs with a hook that aborts, and an abort if a panic gets out of the closure. User code is a function of the arguments (no state carried over between calls).  
Theorems: `C74_persistent` (pcq), `C74_agrees` (pcq), `C74_displays_nothing` (pq), `C74_replays_silently` (pcq)

**C75 execute_with** – proved.  
Modelled: Model/Instrument `callInEnvironment`, `runHarnessIn`.  
Proof: the theorems on user programs (C65) applied to what the function does; induction over the program for independence of the files.  
Remark: the function is a parameter: any program that is given the closure.  
Theorems: `C75_fuzzing` (pcq), `C75_replaying` (pcq), `C75_around` (pcq)

**C76 The bincode format** – proved.  
Modelled: Model/Bincode, Model/BincodeArgs.  
Proof: mutual induction on schemas, values and derivations of the grammar (Spec/Bincode).  
Remark: The wire format of bincode 2.0.1 and what its decoder claims are modelled from its specification and from memory of its source (not in the repository).  
Theorems: `C76_writes` (pcq), `C76_reads` (pcq), `C76_round_trip` (pcq), `C76_prefix_free` (pcq), `C76_read_stable` (pcq), `C76_arguments` (pcq), `C76_feature` (p), `C76_small_file` (pcq)

**C77 What is shown for arguments and results** – proved.  
Modelled: Model/DebugText: `fmt_args`, `Debug` of `Args` and `Ret`, `output_args`, `output_ret`, and `debug_struct`, `debug_tuple`, `PadAdapter` of `core::fmt`.  
Proof: the padding of `core::fmt` is proved equal to indenting complete lines (Spec/DebugText) by induction over the text; composition with what a harness does (C11).  
Remark: `core::fmt::builders` is modelled from memory of its source (not in the repository). The `Debug` of a value is a parameter, taken to succeed.  
Theorems: `C77_args` (pcq), `C77_ret` (pcq), `C77_tells_apart` (pq), `C77_ret_tells_apart` (pq), `C77_layout` (pcq), `C77_pieces` (pcq), `C77_names` (pcq), `C77_display` (pcq), `C77_replay` (pcq), `C77_ambiguous` (pcq), `C77_tuple` (p)

**C78 Generic parameters and arguments** – proved.  
Modelled: Model/Generics: every declaration and application in `quote!`, `combine_generics`, `restrict_to_deserialize`.  
Proof: kinds and numbers as rustc checks them (Spec/Generics); induction over the lists.  
Remark: `syn` prints lifetimes before other parameters and arguments (from memory of its source). Whether bounds are met is C82.  
Theorems: `C78_parameters` (pcq), `C78_only_generic_args` (p), `C78_order` (pq), `C78_arguments` (pcq), `C78_combined` (p), `C78_deserialize` (p)

**C79 Options of the attributes** – proved.  
Modelled: Model/AttrOptions: `TestFuzzOpts`, `TestFuzzImplOpts`, `opts_from_attr`, and what `map_method_or_fn` reads from the texts.  
Proof: an invariant of the loop that darling generates, by induction over the items; Spec/AttrOptions says what single items mean.  
Remark: darling 0.24 is not in the repository; `from_list` and its readers of values are modelled from memory of its source. Whether `rename = name` without quotes is read is a parameter, as is the syntax of Rust.  
Theorems: `C79_accepted` (pq), `C79_meaning` (pq), `C79_order` (pq), `C79_every` (pq), `C79_texts` (pq), `C79_or_panics` (pq), `C79_without_parentheses` (p), `C79_impl` (pq), `C79_as_parsed` (pq)

**C80 Names in the generated module** – proved.  
Modelled: Model/Names: the items of the module, `use super::*`, the structs inside of functions.  
Proof: resolution of paths through modules, blocks, parameters and preludes; case analysis on how a path begins.  
Remark: Resolution is modelled as documented in the Rust Reference, for types; visibility and macros are left out. Stated for paths; a type is as good as the paths in it.  
Theorems: `C80_same` (pcq), `C80_same_inside` (pcq), `C80_same_result` (pcq), `C80_same_auto` (pcq), `C80_captured_auto` (p), `C80_captured` (pcq), `C80_super` (p), `C80_args` (pcq), `C80_nested` (pcq), `C80_nested_target` (pcq)

**C81 Which types are shown and have generated values** – proved.  
Modelled: Model/Traits: `TryDebug`, `auto_impl!`, `auto!` in the context where they are written, and the impls of runtime/src/traits.rs.  
Proof: impls are Horn clauses; what is known is an inductive predicate, and the theorems are by induction over derivations (substitution, inversion).  
Remark: The choice between an inherent function and one of a trait is as in the Rust Reference: inherent if the bounds of its impl are known to hold. Lifetimes, constants, normalisation of associated types are left out.  
Theorems: `C81_sound` (p), `C81_complete` (pq), `C81_parameter` (–), `C81_shown` (pcq), `C81_shown_named` (pcq), `C81_shown_plain` (pcq), `C81_hidden` (pcq), `C81_stated` (pcq), `C81_result` (pcq), `C81_rows` (pq), `C81_rows_named` (pq), `C81_values` (pcq), `C81_fewer` (pcq), `C81_no_values` (pcq), `C81_no_corpus` (pcq), `C81_phantom` (pcq)

**C82 Which bounds a target needs** – proved.  
Modelled: Model/Bounds: what each generated item asks of types, `restrict_to_deserialize`, the phantoms; the bounds that serde_derive infers.  
Proof: cut and substitution for derivations; inversion for parameters and for types `T::A`; `C82_complete` is for every target, the others are special cases.  
Remark: `serde_derive` 1.0 (bound.rs) is modelled from memory. Arguments with attributes and conversions are left out.  
Theorems: `C82_declared` (pq), `C82_every` (p), `C82_given` (p), `C82_serialize_stated` (pq), `C82_bounds_known` (p), `C82_bounds_stated` (p), `C82_generic` (pcq), `C82_plain` (pcq), `C82_parameters` (pcq), `C82_complete` (pcq), `C82_projected` (pq), `C82_names` (pcq)

**C83 The user interface does not change the fuzzing** – proved.  
Modelled: Model/Fuzz (loop, drawing, the output in the warning), Model/Command.  
Proof: a relation between the states of two runs, kept by each step (Spec/FuzzUi); induction over the number of iterations.  
Remark: Of the warning only the part with the output is modelled. That AFL behaves the same without its own interface is not claimed.  
Theorems: `C83_same_fuzzing` (pcq), `C83_panic_at_worst` (pq), `C83_command` (pq), `C83_warning_empty` (pcq), `C83_warning_last_lines` (pcq)

**C84 The life of an input, over any history** – proved.  
Modelled: Model/Storage (consolidate, reset), Model/Runtime (`write_data`), Model/Dirs; a transition system over them.  
Proof: induction over the history; each step keeps the invariant, by C06, C28, C29, C30 and a lemma on what an interrupted consolidation can have touched.  
Remark: Assumptions, in `Deed.Does`: a fuzzer writes to the output directory of its target only and keeps earlier findings (AFL may delete an old session when it is not resumed: this counts as a reset); SHA-1 does not collide on the inputs in question. Runs of the command do not overlap with recordings; concurrent recordings are C03 and C86, overlapping runs C87.  
Theorems: `C84_kept` (pcq), `C84_for_good` (pcq), `C84_consolidated` (pcq), `C84_origin` (pcq)

**C85 What displaying and replaying print** – proved.  
Modelled: Model/Report (`for_each_entry` 973-998, headings), Rust/Lossy (`String::from_utf8_lossy`, after core/src/str/lossy.rs).  
Proof: the decoder against the Unicode Standard: induction over its loop, and uniqueness by induction over the relation; the run by the actions it can perform.  
Remark: The text of a status is arbitrary. What `cargo llvm-cov` prints is left out. That the harness is killed in the middle of a character at the time limit is what makes ill-formed output ordinary.  
Theorems: `C85_lossy` (pcq), `C85_valid` (pcq), `C85_ascii` (pcq), `C85_newline` (pcq), `C85_entry` (pcq), `C85_ends` (pcq), `C85_lines` (pcq), `C85_heading_plain` (pq), `C85_heading` (pq), `C85_heading_panics` (pcq)

**C86 Recording by many tests at once** – proved.  
Modelled: Model/ConcRecord: `write_data` down to system calls (mkdir up and down as in `std::fs::create_dir_all`, open with truncation, writes in chunks), any number of threads.  
Proof: an inductive invariant over all interleavings (directories, who may rely on which bytes of which file); a measure for termination; uniqueness of the final file system.  
Remark: System calls are atomic and succeed if they can (failures: C04, C01); descriptors stand for paths, since nobody removes files of a corpus. A consolidation writes its inputs the same way.  
Theorems: `C86_no_failure` (pq), `C86_kept` (pq), `C86_untouched` (pq), `C86_all_recorded` (pq), `C86_same_result` (pcq), `C86_finishes` (pq), `C86_sequential` (pcq), `C86_targets` (pq), `C86_harmless` (pq), `C86_in_the_way` (pq)

**C87 Tests and consolidations at the same time** – proved.  
Modelled: Model/ConcRuns: processes that record (as in C86), consolidate and reset (directories are read entry by entry, each input is written by `write_data`, directories are removed entry by entry, any of this may fail), or fuzz (add files).  
Proof: an inductive invariant over all interleavings: how far each process has got, which findings are in the corpus already, that nothing is removed before; the result is determined (`C87_same_result`), and a simulation shows that the sequential model of Model/Storage is one of the interleavings (`C87_storage_runs`, `C87_sequential`).  
Remark: `C87_fuzzer_loses` is the counterexample with a fuzzer (finding 36). Reading a file is one step; `read_dir` returns all entries that exist throughout. A finished consolidation is claimed to be complete, not that it succeeds: two consolidations of one target can make each other fail.  
Theorems: `C87_never_lost` (pcq), `C87_no_failure` (pcq), `C87_tests` (pcq), `C87_consolidated` (pcq), `C87_untouched` (pcq), `C87_targets` (pq), `C87_fuzzer_loses` (pq), `C87_result` (pcq), `C87_same_result` (pcq), `C87_storage_runs` (pcq), `C87_sequential` (pcq)

**C88 What the width of a line counts** – proved.  
Modelled: Rust/Strip (`strip_ansi_escapes::strip` 0.2.1 on the parser of vte 0.14.1, all 14 states), Model/Ui.  
Proof: the automaton emits to the right only (induction over the input, any state), against a grammar of text and sequences after ECMA-48 (Spec/Strip).  
Remark: The crates are not among the sources in /repo; the model follows these versions from knowledge. This discharges the hypotheses on `vis` in C44, C45, C83 and C85 for the function the code uses.  
Theorems: `C88_prefix` (pcq), `C88_mono` (pcq), `C88_displays` (pcq), `C88_plain_text` (pcq), `C88_plain` (pcq), `C88_cut` (pcq), `C88_cut_text` (pcq), `C88_cancel` (pcq), `C88_all_show` (pcq), `C88_safe_iff` (pcq), `C88_heading_panics` (pcq)

**C89 What a fuzzer found is reproduced** – proved.  
Modelled: the harness (Model/Instrument), the commands that start it (Model/Command), the loop over stored inputs (Model/Run) and consolidation (Model/Storage), put together.  
Proof: case analysis over what becomes of the body under both panic hooks (C12, C74), the exact environments (C08, C23), induction over the reports (C33), and C29.  
Remark: That the exit status of a harness process says whether the test returned (`Genuine`) and that crash files are inputs on which a fuzzed process died are hypotheses: libtest and AFL are not modelled. `C89_difference` is finding 37.  
Theorems: `C89_found` (pcq), `C89_found_call` (pcq), `C89_replayed` (pcq), `C89_difference` (pcq), `C89_fuzzer_environment` (pq), `C89_replay_environment` (pq), `C89_verdicts` (pcq), `C89_reproduced` (pcq), `C89_crashes` (pcq), `C89_kept` (pcq)

**C90 Arguments that serde is told to skip** – proved.  
Modelled: Model/SerdeAttrs, SerdeOmit: the names in the text of an attribute, and the derived implementations of `Args` with fields that are skipped, omitted for some values, or flattened.  
Proof: induction over the fields: what is written conforms to what is read, and reading gives the values with defaults (`fields_read`); text of attributes by induction over items.  
Remark: serde_derive is not among the sources in /repo. `Default`, `with` and other functions named by attributes are parameters of the model. serde_derive looks at `flatten` on fields that are written when writing and on fields that are read when reading; what is read with `flatten` is not modelled, only that nothing can be written (`C90_flatten`), and that on a skipped argument it does nothing (`C90_kept`). `C90_one_sided` is finding 39, `C90_omitted` and `C90_misread` are finding 45.  
Theorems: `C90_names` (pq), `C90_skips` (pq), `C90_skip` (pcq), `C90_skip_bincode` (pcq), `C90_none` (pcq), `C90_forgotten` (pcq), `C90_one_sided` (pcq), `C90_moved` (pcq), `C90_flags_if` (pq), `C90_kept` (pq), `C90_flatten` (pcq), `C90_omitted` (pcq), `C90_misread` (pcq)

**C91 What conversions require** – proved.  
Modelled: Model/Convert: requirements of conversions, on top of Model/Bounds; `Y: FromRef<X>` is a trait of a pair of types.  
Proof: inversion of derivations for `FromRef`, with the impl of test-fuzz/src/convert.rs as one of the impls; the rest from C81 and C82.  
Remark: Coherence is not modelled: that `Y` cannot have both implementations of `FromRef<X>` is not used.  
Theorems: `C91_from_ref` (pcq), `C91_plain` (pcq), `C91_generic` (pq), `C91_instead` (pcq)

**C92 Lifetimes in the types of arguments and results** – proved.  
Modelled: the types that `map_typed_arg` and `expand_self` write to the struct `Args` and to `RetTy` (Model/Args, TypeUtils, Expand).  
Proof: where lifetimes may be left out is specified on types (`Explicit`), with the set of paths that have lifetimes to be added as a parameter; induction over types for `map_typed_arg`, mutual induction over types, paths and tokens for `expand_self`.  
Remark: That the compiler rejects elided lifetimes in fields and associated types is in the specification. Types made by user macros are tokens. `C92_result` is finding 41.  
Theorems: `C92_fields` (pcq), `C92_references` (pcq), `C92_result` (pq), `C92_self` (pq), `C92_receiver` (pcq), `C92_in_scope` (pcq)

**C93 Every input that decodes reaches the target** – proved.  
Modelled: `read_args`, the call expressions and `auto_generate` (Model/Args, Auto, Instrument); generated values are values of the fields of `Args`, written as such.  
Proof: induction over the type of an argument: what the call expression evaluates to on any field of the right type (`mapTypedArg_uses`), against a relation between fields and arguments (`Arrives`); induction over the fields; C18, C19 and C11 for generated inputs.  
Remark: That decoding yields values of the fields' types is a hypothesis (the type checker sees to it). `C93_generated` assumes that the format gives back what it wrote, as C13 does.  
Theorems: `C93_decoded` (pcq), `C93_unique` (pcq), `C93_typed` (pcq), `C93_generated` (pcq), `C93_every_value` (pcq)

**C94 Results that borrow from arguments** – proved.  
Modelled: the call expressions of `map_typed_arg` (Model/Args) and the type of the result (Model/Expand).  
Proof: the borrow checker is specified as a choice of lifetimes for the names in the signature, over any set of lifetimes in which that of a local variable does not outlive `'static` (`CallChecks`); induction over the type of an argument for the references that its expression makes (`mapTypedArg_madeRefs`); lifetimes are chosen by reachability through outlives-bounds; mutual induction over types for what `expand_self` keeps (`ty_keeps`).  
Remark: Lifetimes of the signature are compared, not regions inside of the call; variance is not modelled: lifetimes in the result are taken to have to be `'static`, as `args_ret_ty` says. `C94_borrowed_result` and `C94_static` are finding 42.  
Theorems: `C94_checks` (pcq), `C94_borrowed_result` (pcq), `C94_static` (pcq), `C94_independent` (pcq)

**C95 Inputs that were not recorded completely** – proved.  
Modelled: both formats down to bytes (Model/Postcard, Bincode), `write_data` with arbitrary failures (Model/Runtime) and with interleaved processes (Model/ConcWrite).  
Proof: the grammars of C16 and C76 are unambiguous: what is read from a beginning would be read from all of it, and leave something over; then C04 and C11; an invariant over interleavings for processes at the same time.  
Remark: `C95_concurrent` is about writes that the system does not split (`WholeSteps`); `C95_split` shows why, it is finding 43. The lengths of values are below 2^64.  
Theorems: `C95_postcard` (pcq), `C95_bincode` (pcq), `C95_arguments` (pcq), `C95_interrupted` (pcq), `C95_concurrent` (pcq), `C95_split` (pq)

**C96 Instantiations of a generic target share a corpus** – proved.  
Modelled: `path_from_args_type` (Model/Dirs), recording in user programs (Model/Instrument), both formats.  
Proof: the first occurrence of the marker does not depend on what follows; C69 for the contents of the corpus, C11 for what the harness does; computation with the formats for the example of strings and bytes.  
Remark: C69 has as a hypothesis that everything recorded is read as recorded; C96 is what remains without it. `C96_confused` is finding 44.  
Theorems: `C96_directories` (pq), `C96_corpus` (pcq), `C96_confused` (pq)

**C97 Recordings and later versions of a target** – proved.  
Modelled: fields and expressions of `Args` (Model/Args), both formats down to bytes.  
Proof: what is stored for an argument does not depend on names: induction over the type of a parameter (`mapTypedArg_form`); the formats concatenate; C95 for beginnings, and reading ignores what follows (C16, C76).  
Remark: The impl and the conversions stay the same. `PhantomData` is taken to be serialised as nothing.  
Theorems: `C97_begins` (pcq), `C97_removed` (pcq), `C97_added` (pcq)

**C98 The command succeeds only if what it depends on did** – proved.  
Modelled: `run` with all its modes (Model/Run).  
Proof: inversion of the monad of effects along `run`, one theorem for each mode.  
Remark: `Succeeded`: the last action is the command, and the system answered that it succeeded. The fuzzing loop itself is `Model/Fuzz` (C37-C40, C83).  
Theorems: `C98_coverage` (pcq), `C98_fuzzer` (pcq), `C98_build` (pq), `C98_loop` (pcq), `C98_every_target` (pcq)

**C99 Conditionally compiled methods and parameters** – proved.  
Modelled: `test_fuzz_impl`, `map_impl_item_fn`, `map_method_or_fn` (Model/Expand).  
Proof: induction over the items, on top of C56.  
Remark: What `cfg` does is in the specification (`Compiled`): items with an attribute that does not hold are removed after the macro has run, as the compiler does for what is inside of an item with an attribute macro. `C99_dangling` is finding 46.  
Theorems: `C99_items` (pq), `C99_dangling` (pq), `C99_attributes` (p), `C99_parameters` (pcq)

**C100 Qualified functions and inner attributes** – proved.  
Modelled: the generated function and module (Model/Expand, Model/Instrument).  
Proof: structural recursion over the generated code for what is compiled in a build and whether the target is called; inversion of `map_method_or_fn`.  
Remark: What the compiler says is in the specification (`QualAccepted`): no calls of functions that are not `const` in a `const` function, `unsafe` calls in `unsafe` blocks, the type of a call of an `async` function, and where inner attributes may stand. `syn` collects inner attributes with the others.  
Theorems: `C100_compiles` (pcq), `C100_plain` (pcq), `C100_const` (pcq), `C100_other_builds` (pcq)

**C101 A target without corpus is fuzzed from its generated inputs** – proved.  
Modelled: `auto_generate_corpora` (Model/Run) and the generated test `auto_generate` (Model/Instrument), as two processes.  
Proof: induction over the targets with the frame of each recording (C01, C04, C06), on top of C05, C18, C21 and C39.  
Remark: `RunsTest` says what the executable is: run with the name of the test, it does what the generated test does, in the environment the command gives it. That libtest runs exactly the test named after `--exact`, and nothing if there is none, is part of it. In the generating process input/output does not fail. `C101_switched_on` and `C101_again` are findings 50 and 51.  
Theorems: `C101_exactly` (pcq), `C101_switched_on` (pcq), `C101_again` (pcq), `C101_fuzzed` (pcq)

**C102 What --list prints** – proved.  
Modelled: `println!("{executable_targets:#?}")` (cargo-test-fuzz/src/lib.rs:324) with `Debug` for `Executable` (244-263): Model/ListText, on top of the model of `Formatter` (Model/DebugText).  
Proof: each value is a block of lines (`Blk`), and padding indents the lines of a block; escaping is prefix-free, hence quoting is injective; with C22, C24 and C27 for the whole command.  
Remark: The formatters of `Vec`, tuples, `str`, `Path` and `char` are modelled after `core` and `std`; which characters are printable is a parameter, and so is every theorem for all such parameters (that grapheme extenders are escaped only in some positions is left out). Versions are shown as text; that versions that were read from a text have different texts is `C102_versions`, by C71.  
Theorems: `C102_quoting` (pcq), `C102_plain` (pcq), `C102_layout` (pcq), `C102_tells_apart` (pcq), `C102_lines` (pcq), `C102_run` (pcq), `C102_versions` (pcq)

**C103 Coverage, display and replay together** – proved.  
Modelled: `run_without_exit_code` with `include_fuzzing_instrumentation` and `for_each_entry` (Model/Run, Command).  
Proof: the two computations are equal, step by step: congruence through every function that reads the options, by induction over targets.  
Remark: `C103_ignored` is an equation of whole runs, for every system. Where the objects come from is C32_run. Finding 53.  
Theorems: `C103_ignored` (pcq), `C103_only_shown` (pq)

**C104 When the command panics** – proved.  
Modelled: The whole command as in C72: every `unwrap`, `expect`, `assert!` and slice of cargo-test-fuzz/src/lib.rs and internal/src/dirs.rs that can fail gives `panic` in the model. Panics in dependencies (clap, cargo_metadata, mio, …) are not modelled.  
Proof: Compositionally: each part panics only for a reason; for replaying, the set of things seen is tracked through the loop (`assert!(!failure && …)` at the end never fails); for headings, the binary search is followed for ASCII names without any assumption on how wide text is shown. Converses: `C104_early`, and C66, C31, C85, C47 for the later causes..  
Remark: Model/Run.lean, Spec/Panics.lean, Props/Panics.lean  
Theorems: `C104_causes` (pcq), `C104_early` (pcq), `C104_loop` (pcq), `C104_safe` (pcq)

**C105 What the macros print** – proved.  
Modelled: `log`, `log_enabled`, and the two macros as a sequence of uses in one process, `INDEX` counting on (Model/Log, Expand).  
Proof: induction over the uses; equivalences, so that nothing else decides what is printed; on top of C56 and C67.  
Remark: What `prettyplease` makes of an expansion is not modelled. `option_env!` gives the value with which the macros were compiled; cargo compiles them again when it changes. The name is that of the crate (`a_b`), not of the package (`a-b`).  
Theorems: `C105_crate` (pcq), `C105_rejected` (pcq), `C105_targets` (pcq), `C105_warnings` (pcq), `C105_build` (pcq)

**C106 What the terminal shows** – proved.  
Modelled: `refresh` with all that it writes: cursor movement, rows, sequences that erase (Model/Ui `refreshOutput`). The terminal is a specification of its own (Spec/Screen): cells with pens, deferred wrapping in the last column, scrolling, SGR, `ESC [ H`, `ESC [ 0 K`, line feed with ONLCR. Its size does not change during a refresh; wide and combining characters and control characters in lines are excluded.  
Proof: the binary search finds the cut of a line of characters and colour sequences (`C106_cut`); induction over the rows with the position of the cursor as invariant; the meaning of the bytes is a relation, shown to be functional.  
Remark: `strip_ansi_escapes` as in C45. Other control sequences in the output of fuzzers (afl-fuzz writes some) are not covered.  
Theorems: `C106_cut` (pcq), `C106_page` (pcq), `C106_screen` (pcq), `C106_fresh` (pcq), `C106_too_small` (pq), `C106_off` (pq), `C106_colour_leaks` (pcq), `C106_headings_plain` (pcq)

**C107 What the fuzzing loop starts, and what it does to files** – proved.  
Modelled: The iteration of the fuzzing loop with the command of the fuzzer that it starts and the directory made for it (Model/FuzzIO, on Model/Fuzz and Model/Command). The fuzzers change files in any way that a relation `fz` allows, between iterations.  
Proof: an induction over the iterations relates the commands to the starts in the loop's log (`LoopReach.commands`), for which Lemmas/Fuzz has the invariants; a frame argument for files (`LoopReach.keeps`); `C107_refines` shows that the states are the same as without files, so all theorems about the loop (C34-C43, C83-C85) apply.  
Remark: `C107_commands` assumes that no target occurs twice (no two with the same executable and name): Cargo names no executable twice, and libtest lists no test twice. Fuzzers change files between iterations, not while a directory is being made. In whole commands (C98, C104) the loop is one step of the system (`Sys.loop`, `Sys.fuzzed`); C108 ties it to this loop.  
Theorems: `C107_commands` (pcq), `C107_frame` (pq), `C107_output` (pq), `C107_corpus` (pcq), `C107_outcome` (pq), `C107_refines` (pq)

**C108 Fuzzing several targets, from the command line to the fuzzers** – proved.  
Modelled: The whole command (Model/Run) with the fuzzing loop (Model/Fuzz, FuzzIO). In Model/Run the loop is one step of the system; the hypothesis `hloop` says that this step is a run of the loop of Model/FuzzIO that has ended (`LoopEnds`).  
Proof: `run_loop` takes a successful command apart into build, generation and loop; `startOf_done` shows that an ended loop has started each target once, as its first fuzzer; then C107's invariants and C21.  
Remark: assumes that generation runs and fuzzers remove nothing and put no files where output directories are to be, and no I/O errors. The case in Props/FuzzEnd builds a system whose loop is the real one.  
Theorems: `C108_end_to_end` (pcq)

**C109 What the fuzzing loop warns about** – proved.  
Modelled: What is written to standard error by each event, poll and iteration (Model/Warnings), also by one that ends the loop; with each child the command that is kept for it. How commands are shown is any function.  
Proof: an induction over the iterations: each child's command is the last one of its target, and the warnings are those of the failures in the log (`Warned.inv`); that a target fails once is in the log's invariant (`GoodLog.failing_nodup`).  
Remark: assumes that no target occurs twice, as C107. Which lines of the fuzzer's output are in the warning is in C83 (`C83_warning_last_lines`).  
Theorems: `C109_warnings` (pcq), `C109_all_failed` (pcq), `C109_last` (pcq)

**C110 The command succeeds when nothing goes wrong** – proved.  
Modelled: The whole command (Model/Run), with the system's answers as in C98; `Determines` (Spec/Succeeds) lists what is needed to learn the targets.  
Proof: `prepare_of` and `prepare_needs` show that `Determines` is sufficient and necessary for the preparations; then the work of each mode is run forward, by inductions over missing corpora (`autoGenerate_supplied`), targets and stored inputs (`replayLoop_succeeds`, C33), and by C28 and C29.  
Remark: the converse of C98 and C32_run. For the modes that look at files, no I/O errors are assumed; that headings can be made is an assumption (for ASCII names it follows from C45; for others see C85 and C104). Readability of directories is not modelled.  
Theorems: `C110_lists` (pcq), `C110_one` (pcq), `C110_many` (pcq), `C110_replay` (pcq), `C110_consolidate` (pcq), `C110_reset` (pcq)

## Where the code differs from what a user might expect

Found while modelling. Where a theorem is named, the behaviour is proved of the model.

1. The scheduler livelocks when fewer targets than cpus have not failed (`C38_livelock`, `C38_livelock_reachable`).
2. `--consolidate-all` without `--reset-all` panics unless there is exactly one target
   (`C31_consolidate_all_never_finishes`).
3. Truncation to the terminal's width panics inside a multi-byte character (`C45_panics_on_other_text`, `C45_panics`). With the UI and
   no terminal the refresh panics. Headings in replay are truncated the same way (`C85_heading_panics`).
4. A target whose name contains `_fuzz__` is looked up in the wrong directory (`C05_disagree_without_proviso`).
5. Artifact directories do not follow `--manifest-path` (`C64_wrong_workspace`).
6. `--timeout` times 1000 can overflow (`C47_overflow`).
7. A string of more than 2048 bytes is recorded but cannot be read back with the default format (`C16_long_string`).
8. Generated field names `_0`, `_1` … can clash with parameters of these names (`C55_clash`).
9. `Self` is left in the arguments of `Self::A<Self>`, and `Self::N` in array lengths; `Self::X` in an inherent impl
   panics (`C51_arguments_left`, `C51_constants_left`, `C51_inherent_panics`).
10. Without `--exit-code` the status is 0 even if some (not all) targets failed (`C41_plain_status`).
11. A conversion for `X` does not apply to `&X` (`C15_not_behind_references`).
12. The last line of a fuzzer's output is not processed if it has no newline (`C42_in_the_loop`).
    `TEST_FUZZ=""` counts as enabled (`C09_switches`).
13. Module names are not injective in general (`C54_clash`).
14. `Path::exists` is false when it fails, so reset then reports success.
15. Crates `a-b` and `a_b` share directories (`C06_dash_underscore_share`).
16. The raw report of an empty file prints no newline (`C85_ends`).
17. A harness that closes its stderr but keeps running blocks `job.wait()` during replay.
18. In fuzzing mode a panic that the target catches aborts the process (`C12_fuzzing_aborts`).
19. `T::Item` and const parameters are not substituted (`C52_projection_left`, `C52_const_left`).
20. The turbofish rewriting misses later lists of a path and doubles `::` (`C53_later_missed`, `C53_doubled`).
21. A panic inside a serialiser poisons the mutexes on the way (`C49_released`).
22. `mut self` makes the macro panic; typed receivers (`self: Box<Self>`) give a field of the wrong type; patterns such as
    `_: T` give code that does not compile. A second `#[test_fuzz]` attribute on a function of an impl is kept.
23. Compiled with `--persistent`, a harness that is to display shows nothing, and one that is to replay shows no result and
    aborts on a panic (`C74_displays_nothing`, `C74_replays_silently`).
24. With bincode, the limit of 1 GiB is on what the decoder claims by type, so that files of an eighth of that size can be
    recorded and not read back (`C76_small_file`).
25. For floating-point arguments the seven generated values are only four different ones: the neighbours of the extremes round
    to the extremes (`C20_floats`).
26. Targets with constant parameters do not compile: `struct Args #ty_generics` declares the constant as a type, and
    `write_args::<..>` leaves it out (`C78_parameters`); with `only_generic_args` they do.
27. Nor do targets with a type parameter called `R`: `read_args` is declared inside of `impl<R: ..> UsingReader<R>`
    (`C78_parameters`).
28. A target whose name is a raw identifier (`fn r#type`) makes the macro panic, unless it is renamed: the name of the module
    is made with `Ident::new` (`C67_succeeds`).
29. In an impl, `#[test_fuzz = ..]` is taken for `#[test_fuzz]` (`C79_without_parentheses`).
30. A type of the user's called `Args`, `UsingReader` or `HasRetTy` in the signature of a target is mistaken for a generated one,
    and `super::` is off by one level (`C80_captured`, `C80_super`). An argument of a type called `Auto` or `AutoFallback` is
    mistaken for what the macro `auto!` declares (`C80_captured_auto`).
31. A target inside of a function does not compile: `read_args` refers to `Args` by the name of the module, which is not found
    there (`C80_nested`).
32. In a generic target, an argument whose type is a parameter is shown as `<unknown of type ..>` unless the target itself asks
    for `Debug`, and no corpus is generated unless it asks for `Default` or `Bounded`, whatever the generic arguments have
    (`C81_hidden`, `C81_no_corpus`).
33. The option `bounds` only repeats, for the struct, what the target must ask for anyway (`C82_bounds_known`,
    `C82_bounds_stated`).
34. When a fuzzer fails, the warning has a section for its standard output, which is always empty with `--no-ui`, and otherwise
    lacks the lines that no longer fit on the screen (`C83_warning_empty`, `C83_warning_last_lines`).
35. A target with a parameter called `generic_args` or `impl_generic_args` does not compile: the block that records declares
    variables of these names before it reads the arguments (`macro/src/lib.rs:494-512`; `C13_hidden`).
36. Consolidating a target while a fuzzer is running on it can lose an input: what is found after its directory was listed and before
    that directory is removed is gone, though the command succeeds (`cargo-test-fuzz/src/lib.rs:767-831`; `C87_fuzzer_loses`).
37. A panic that the target catches itself is a crash for the fuzzer, whose harness aborts in the panic hook, but replaying that crash
    succeeds, since the hook is not replaced then (`macro/src/lib.rs`, the generated `entry`; `C89_difference`).
38. If `--consolidate` dies while it removes the output directory, repeating it fails as long as `crashes`, `hangs` or `queue` is
    gone (`C30_stuck`), though nothing is lost and `--reset` finishes the job (`C30_rerun`).
39. `#[serde(skip_serializing)]` on an argument is accepted, but what is recorded cannot be replayed, as the formats are not
    self-describing: the argument is read though it was not written (`C90_one_sided`).
40. README.md lists what `Y` has to implement for `convert = "X, Y"`. `Clone` is not on the list, but without it the generated code
    does not compile, as auto-generated values are cloned, even with `no_auto_generate` (`C91_plain`).
41. A target cannot return a borrow with an elided lifetime: `fn f(s: &str) -> &str` is copied to an associated type, where
    `&str` is an error (`C92_result`); the user has to write the lifetime.
42. But with the lifetime written, as in `fn f<'a>(s: &'a str) -> &'a str`, the harness does not compile either: the result
    borrows from a local variable and is stored outside of it as `&'static str` (`C94_borrowed_result`). The same holds for
    methods that return a borrow from `self`. Parameters of type `&'static T` always need a conversion (`C94_static`).
43. If the system splits a write, two processes that record the same call can leave a file with zeros in place of its
    beginning (`C95_split`), which may run as a call that nobody made. `write_data` writes in place; a temporary file and a
    rename would rule this out.
44. All instantiations of a generic target record in one corpus, and the harness reads all of its files with the types of
    `generic_args`. Recordings of calls with other types are mostly read without an error, as other calls
    (`C96_confused`): a `String` as a `u8`, namely its length. The README speaks of serialisability only.
45. `#[serde(skip_serializing_if = "..")]` on an argument is accepted, too, but a call for which the argument is omitted is
    recorded without it and read with it: it cannot be replayed (`C90_omitted`), or, worse, it is replayed as another call
    (`C90_misread`). With `#[serde(flatten)]` each call of the instrumented function panics (`C90_flatten`).
46. `#[cfg(..)]` on a method with `#[test_fuzz]` works for the method, but not for its module, which is always generated: where
    the method is configured out, the tests do not compile (`C99_dangling`).
47. Functions that are `const`, `async` or `unsafe` are accepted by the macro, but the tests do not compile, or with
    `enable_in_production` nothing does; nor does a function with an attribute inside of its body (`C100_compiles`).
48. That a parameter `T` is deserializable need not be stated by a target, but that an associated type `T::A` is must, though the
    README asks for it "only when the target is instantiated" (`C82_projected`).
49. `#[cfg(..)]` on a parameter of a target is moved to a field, so that the parameter is there even if it should not be
    (`C99_parameters`).
50. With `TEST_FUZZ` set in the user's environment, missing corpora are not generated, since the generating test inherits it; the
    message then asks to ensure that the target is tested (`C101_switched_on`).
51. If serialising a generated value fails after others were written, `cargo test-fuzz` fails; run again, it finds a corpus and
    fuzzes from the part that was written (`C101_again`).
52. The README says that with `--display` what the target writes to stderr is shown. With `--display` alone the target is not
    called (`C11_display_only`), so that there is no such output unless `--replay` is given, too.
53. `--display` and `--replay` can have different objects, but the one of `--replay` is then ignored: `--display corpus
    --replay crashes` replays the corpus, and `--display generic-args --replay crashes` nothing (`C103_ignored`,
    `C103_only_shown`).
54. Headings and lines that reach the last column lose their last character: `ESC [ 0 K` is written after each row, and then the
    cursor is still on the character in the last column (`C106_screen`, last part).
55. A line is cut right after its last visible character. If it fills the width, even exactly, a sequence at its end that resets
    the colours is dropped, and what follows – headings of other targets included – is coloured (`C106_colour_leaks`).
56. In the loop's warnings and errors a command is quoted twice: `exec` is the text of the command as `{:?}` shows it, and is itself
    shown with `{:?}` (`cargo-test-fuzz/src/lib.rs:1307, 1311, 1388, 1399`), so that it cannot be copied to a shell. (By reading;
    C109 holds for any way of showing commands.)
57. `--reset` asks `Path::exists` whether there is an output directory, which says no if it cannot tell. The command then succeeds
    and has removed nothing (`C28_unseen`). Likewise `--display` and `--replay` then say that they could not find a directory that
    is there, and may suggest `cargo test` (`C32_unseen`).

## What is modelled

| source | modelled | not modelled |
|--------|----------|--------------|
| internal/src/dirs.rs | all of it (Model/Dirs); `cargo metadata` is a function from manifest paths to workspaces | the `cargo metadata` process |
| internal/src/serde_format.rs, build.rs | selection of the format; both formats down to bytes (Model/Format, Postcard, Bincode) | – |
| runtime/src/lib.rs | switches, `write_data`, `args_from_autos`, `TryDebug` text, which types get values (Model/Runtime, Auto, TryDebug, DebugText, Traits) | – |
| runtime/src/traits.rs | values for integers and floating-point numbers (Model/Auto, Floats); other numbers by their list of values | payloads of NaN |
| macro/src/lib.rs | `map_arg(s)`, conversions, generated code, module names, impls, errors, text shown, generic parameters and arguments, options, names, bounds, requirements of conversions, serde attributes, logging (Model/Args, Instrument, Expand, DebugText, Generics, AttrOptions, Names, Bounds, Convert, SerdeAttrs, SerdeOmit, Log) | tokens and parsing of items, spans, the feature `__cast_checks`, the formatting of what is logged, failure of `parse_quote!` on generated code |
| macro/src/type_utils.rs, ord_type.rs, pat_utils.rs | all of it (Model/TypeUtils, Syntax, Args) | attributes of types; syn's printing of lifetimes before other generic arguments |
| test-fuzz/src/utils.rs, convert.rs | `dont_care!`, `leak!`, `serialize_ref…`, `FromRef` (Model/Utils, Combinators, Convert) | – |
| serde_combinators/src | all of it (Model/Combinators) | the limit on the number of readers of a `RwLock` |
| cargo-test-fuzz/src/lib.rs | all functions: options and dispatch, build, discovery, selection, versions, consolidate/reset, display/replay/coverage, corpus generation, command lines, the fuzzing loop, the UI, exit codes (Model/Run, Build, Targets, Versions, Storage, Command, Fuzz, FuzzIO, Warnings, Ui, Opts); the text of `--list` (Model/ListText) | help texts; logging |
| cargo-test-fuzz/src/to_exec.rs | all of it (Model/Command) | – |
| cargo-test-fuzz/src/bin/…/main.rs, transition.rs | the declarations, clap's parsing of them, the conversion to options, the status of the process (Model/Cli, C70) | help texts, what is printed, arguments that are not Unicode |
| testing/src/retry.rs | all of it (Model/Retry) | – |
| testing/src/logged_assert.rs, fuzzable.rs, fuzzable/, third-party/, */tests | – | test support and tests |

Each definition's comment says where it simplifies. The simplifications that matter most:

* A harness changes the file system at one point, when it is started (`Sys.leaves`, arbitrary); fuzzers do so when the fuzzing loop
  ends (`Sys.fuzzed`, arbitrary), and in C107 between any two iterations of the loop. Theorems about replays assume that harnesses leave the stored inputs alone (`Spared`,
  `Untouched`), as the code does, which reads the directory while harnesses run.
* Symbolic links, permissions and `..` are not modelled. `std::fs::write` is create/truncate followed by writes.
* External crates are modelled from their documentation: `semver` 1.0 (reading and printing of versions, precedence, caret requirements), `postcard` 1.1.3 (wire
  format and sliding buffer), `bincode` 2.0.1 (wire format and limit), `serde_derive` (fields in order, fields that are skipped or omitted), `strip-ansi-escapes` (Rust/Strip, with the parser of `vte`; most theorems hold for any function with monotonicity as a hypothesis, which C88 proves of it), `sha-1`
  and `hex`, `heck` (kebab case of the ten object names), `mio` and `subprocess` (arbitrary events).
* `type_name` is taken to print a type's path followed by its arguments, which the code itself relies on.

## Trusted base

* Lean 4.33.0's kernel.
* The axioms `propext`, `Classical.choice` and `Quot.sound`, as listed per theorem above; no others. No `sorry`, no
  `native_decide`, no `bv_decide`, no axioms of our own. Examples are checked by `decide +kernel` or `rfl`.
* The faithfulness of the model to the Rust source, which is by reading, with the simplifications above.
* The statements in `Verif/Props` and the definitions they use from `Verif/Spec`.
