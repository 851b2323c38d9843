{"id": "C01", "title": "Recording stores exactly the bytes, under a content-derived name", "statement": "When recording a call (or consolidating an input) succeeds, the target's directory contains a file whose name is the 40-digit lowercase hexadecimal SHA-1 of the data and whose contents are exactly the data, and no other file of the file system was changed.", "quantifier": "every directory, every byte string, every prior file-system state", "why_tests_cant": "The space of byte strings and prior directory states is unbounded; a test sees a handful.", "anchors": ["runtime/src/lib.rs:write_data", "runtime/src/lib.rs:write_args"]}
{"id": "C02", "title": "A corpus is the set of distinct recorded inputs", "statement": "After any sequence of recordings into a directory, the directory holds its earlier files plus exactly one file per distinct recorded byte string; the order and the number of repetitions of recordings do not matter, and recording again what is already there changes nothing (for inputs that do not collide under SHA-1).", "quantifier": "every finite sequence of recorded inputs, every permutation and repetition of it", "why_tests_cant": "Order- and repetition-independence ranges over all sequences.", "anchors": ["runtime/src/lib.rs:write_data", "runtime/src/lib.rs:write_args"]}
{"id": "C03", "title": "Concurrent recordings of the same input do not corrupt it", "statement": "If any number of tests running concurrently record the same input, then, once all of them are finished, the file holds exactly the input, whatever the interleaving of their open/truncate and partial-write steps.", "quantifier": "every number of writers, every split of the data into partial writes, every interleaving", "why_tests_cant": "Schedules are not controllable from a unit test and there are exponentially many.", "anchors": ["runtime/src/lib.rs:write_data"]}
{"id": "C04", "title": "An interrupted recording damages at most the file being written and heals", "statement": "If a sequence of recordings is interrupted at any point (crash, disk full), every other file keeps its contents, the file being written holds a prefix of its data, and re-running the recordings to completion gives the same corpus as an uninterrupted run; whatever interrupts it, the file system stays a tree (nothing is anywhere but in a directory). An instrumented call records its items in order; it runs its body exactly if all were stored, and otherwise panics (or the process ends) at the first that was not, leaving what was stored before. Each function that records stores all of its data, panics, or is killed; none reports an error that its caller could overlook.", "quantifier": "every recording sequence, every call, every crash point, every number of bytes that reached the disk", "why_tests_cant": "Crash points inside std::fs::write cannot be enumerated by tests.", "anchors": ["runtime/src/lib.rs:write_data"]}
{"id": "C05", "title": "cargo test-fuzz looks where the instrumented target wrote", "statement": "For a target in a test crate, the corpus / generic-args / impl-generic-args directory used by the instrumented function (derived from a Rust type name) is the one `cargo test-fuzz` derives from the crate name and the libtest name of the harness, provided the marker `_fuzz__` does not occur earlier in the path; without this proviso it can fail (a target named `a_fuzz_`).", "quantifier": "every crate name, module path, target name, and generic instantiation", "why_tests_cant": "The name space is infinite, and the failing names are rare.", "anchors": ["internal/src/dirs.rs:path_from_args_type", "internal/src/dirs.rs:path_from_target", "cargo-test-fuzz/src/lib.rs:targets"]}
{"id": "C06", "title": "Artifacts of different targets, kinds and runs never share a directory", "statement": "The directories for two different (crate, target) pairs, for different kinds of artifact (corpus, generic args, impl generic args, fuzzer output), or for different TEST_FUZZ_ID values are different and neither is inside the other; crashes, hangs and queue are inside the target's output directory and in no other target's. Where exactly they are is determined by the target directory that cargo reports, the session's id and the names.", "quantifier": "every pair of crate names, target names, kinds and ids", "why_tests_cant": "Pairs of names are unbounded; a collision would show up only for particular pairs.", "anchors": ["internal/src/dirs.rs:path_from_target", "internal/src/dirs.rs:path_segment", "internal/src/dirs.rs:corpus_directory_from_target", "internal/src/dirs.rs:output_directory_from_target"]}
{"id": "C07", "title": "Recording happens only when it should", "statement": "A call of an instrumented target records its arguments exactly when (a) it is compiled for test and TEST_FUZZ is not enabled, or (b) it is compiled for production, the target has enable_in_production, and TEST_FUZZ_WRITE is enabled. In every case the body of the target then runs on the caller's arguments, and with only_generic_args no corpus file is written.", "quantifier": "every environment, every combination of macro options and compilation modes, every argument", "why_tests_cant": "All environments times options times modes.", "anchors": ["macro/src/lib.rs:map_method_or_fn", "runtime/src/lib.rs:test_fuzz_enabled", "runtime/src/lib.rs:write_enabled"]}
{"id": "C08", "title": "Fuzzing, replaying and displaying never write to the corpus through instrumentation", "statement": "Whatever the user's environment, every process that cargo test-fuzz starts to fuzz, replay, display or measure coverage has TEST_FUZZ on and TEST_FUZZ_WRITE off, so the instrumented calls inside it record nothing.", "quantifier": "every user environment, every set of options and LLVM variables, every call made by the target", "why_tests_cant": "All environments and all option combinations.", "anchors": ["cargo-test-fuzz/src/lib.rs:BASE_ENVS", "cargo-test-fuzz/src/lib.rs:for_each_entry", "cargo-test-fuzz/src/lib.rs:fuzz_command", "macro/src/lib.rs:map_method_or_fn"]}
{"id": "C09", "title": "Meaning of the TEST_FUZZ_* switches", "statement": "A switch is on exactly when its variable is set to a value that is valid Unicode and is not \"0\"; distinct switches read distinct variables.", "quantifier": "every environment and every value", "why_tests_cant": "All strings.", "anchors": ["runtime/src/lib.rs:enabled"]}
{"id": "C10", "title": "The harness is inert in a normal `cargo test`", "statement": "If TEST_FUZZ is not enabled, running a generated harness test does not read standard input, does not call the target, does not touch the panic hook, and finishes normally; the hint about TEST_FUZZ=1 is printed at most once per process however many harnesses run.", "quantifier": "every environment without TEST_FUZZ, every standard input, every target, every number of harness runs", "why_tests_cant": "All inputs, and any number of harness runs in one process.", "anchors": ["macro/src/lib.rs:map_method_or_fn", "runtime/src/lib.rs:warn_if_test_fuzz_not_enabled"]}
{"id": "C11", "title": "The harness calls the target exactly once iff the input decodes", "statement": "With TEST_FUZZ on: in fuzzing, replay or coverage mode the target is called exactly once if standard input decodes to an argument tuple and not at all otherwise; with only display on, the target is never called; undecodable input never fails the harness.", "quantifier": "every environment, every byte string on standard input, every target", "why_tests_cant": "All byte strings and all flag combinations.", "anchors": ["macro/src/lib.rs:map_method_or_fn", "runtime/src/lib.rs:read_args"]}
{"id": "C12", "title": "A panic in the target is a crash when fuzzing and a test failure when replaying", "statement": "If the target panics, even if it catches the panic itself, then in fuzzing mode the process aborts (so the fuzzer sees a crash), and in replay/coverage mode the hook in place is the one from before and an uncaught panic fails the test; if it does not panic, then at the end the hook from before is in place in replay/coverage mode and the standard one after fuzzing.", "quantifier": "every environment, input and target behaviour", "why_tests_cant": "All inputs and target behaviours.", "anchors": ["macro/src/lib.rs:map_method_or_fn"]}
{"id": "C13", "title": "What was recorded is what is replayed", "statement": "If a call with arguments a records bytes b, then feeding b to the harness calls the target once with arguments equal to a (with the user's conversions being mutually inverse on the recorded values, and no argument called generic_args or impl_generic_args: the instrumentation hides those, and then there is nothing to record).", "quantifier": "every argument list, every argument type the macro supports, every serialisation format with the round-trip law", "why_tests_cant": "All argument values and all type shapes.", "anchors": ["macro/src/lib.rs:map_args", "runtime/src/lib.rs:write_args", "runtime/src/lib.rs:read_args", "internal/src/serde_format.rs"]}
{"id": "C14", "title": "Argument adaptation is type-correct and loss-free", "statement": "For every argument type (paths, references and mutable references nested to any depth, str, slices, others) the generated field expression yields a value of the field's type from the argument, and the generated call expression yields from the field a value of the argument's type equal to the original.", "quantifier": "every argument type and every value of it", "why_tests_cant": "Types are an infinite, recursive family.", "anchors": ["macro/src/lib.rs:map_typed_arg", "macro/src/lib.rs:map_ref_arg", "macro/src/lib.rs:map_path_arg"]}
{"id": "C15", "title": "A `convert` that is not used is rejected", "statement": "Expansion succeeds only if each distinct `convert` source type applies to some argument; the conversion that is applied to an argument is the last one given for its type; arguments with serde attributes get no conversion; types that are different have different keys (for the forms of types in Spec/TyText: paths, references, slices, arrays, tuples, pointers, dyn and impl types), so a conversion never applies to another type.", "quantifier": "every list of convert options and every argument list", "why_tests_cant": "All combinations of conversions and argument types.", "anchors": ["macro/src/lib.rs:map_method_or_fn", "macro/src/lib.rs:map_typed_arg", "macro/src/lib.rs:map_arg"]}
{"id": "C16", "title": "Encoding then decoding returns the value", "statement": "Deserialising a serialised value, possibly followed by arbitrary further bytes, gives back the value; for the default format this needs each string or byte buffer to fit in the 2048-byte sliding buffer, and a longer string is written but cannot be read back. What is written is exactly what the wire format's grammar says; a file is read as a value exactly if it begins with a text of the grammar for which the buffer has room.", "quantifier": "every schema and value, every trailing byte string", "why_tests_cant": "All values of all types.", "anchors": ["internal/src/serde_format.rs:serialize", "internal/src/serde_format.rs:deserialize", "internal/src/serde_format.rs:SLIDING_BUFFER_SIZE"]}
{"id": "C17", "title": "Reader and writer agree on the format", "statement": "For every selection of serde-format features, serialisation and deserialisation use the same format; with no feature selected it is postcard; the reported feature name is the format in use, and selecting two formats is reported as an error.", "quantifier": "every feature selection", "why_tests_cant": "Each selection is a separate build; tests run in one build.", "anchors": ["internal/src/serde_format.rs", "internal/build.rs"]}
{"id": "C18", "title": "Every auto-generated value is used", "statement": "If every argument has at least one auto-generated value, then every value of every argument occurs, in its position, in some auto-generated argument tuple; running the generated test records exactly the files of these tuples, and nothing if it is run for fuzzing.", "quantifier": "every number of arguments and every list of values per argument", "why_tests_cant": "All arities and list lengths.", "anchors": ["macro/src/lib.rs:args_from_autos", "runtime/src/lib.rs:auto!"]}
{"id": "C19", "title": "Number of auto-generated tuples", "statement": "The number of auto-generated tuples is the largest number of values of an argument, is one for a target without arguments, and is zero if some argument has no value; no out-of-bounds access or division by zero occurs.", "quantifier": "every number of arguments and every list of values per argument", "why_tests_cant": "All arities and list lengths.", "anchors": ["macro/src/lib.rs:args_from_autos"]}
{"id": "C20", "title": "Auto-generated numbers are right at every width", "statement": "For every signed or unsigned integer width of at least 3 bits, the auto-generated values are min, max, 0, max-1, low, high, min+1, where low and high are the two middle values; no intermediate arithmetic overflows. For every binary floating-point format they are the two extremes, 0 and 1: no infinity or NaN arises, and max-1 and min+1 round to the extremes.", "quantifier": "every width, signed and unsigned; every floating-point precision and exponent range", "why_tests_cant": "Width-generic arithmetic and rounding; tests cover i64/u64 only.", "anchors": ["runtime/src/traits.rs", "runtime/src/lib.rs:auto!"]}
{"id": "C21", "title": "Missing corpora, and only those, are auto-generated and all failures are reported", "statement": "Before fuzzing, the auto-generation test is run exactly for the targets without a corpus directory; fuzzing proceeds only if afterwards each had one; otherwise the error has one line per failing target, in order, and no later target is skipped because an earlier one failed.", "quantifier": "every list of targets, every initial set of corpora, every outcome of the generation runs", "why_tests_cant": "All subsets of failing targets.", "anchors": ["cargo-test-fuzz/src/lib.rs:auto_generate_corpora", "cargo-test-fuzz/src/lib.rs:auto_generate_corpus"]}
{"id": "C22", "title": "Target discovery is exact", "statement": "The targets of an executable are exactly the names t such that its test list has the line `t_fuzz__::entry: test`, in listing order; executables without targets are dropped; an unreadable listing is an error.", "quantifier": "every listing output", "why_tests_cant": "All byte streams.", "anchors": ["cargo-test-fuzz/src/lib.rs:targets", "cargo-test-fuzz/src/lib.rs:executable_targets"]}
{"id": "C23", "title": "The harness that is run is the one that was listed", "statement": "For each discovered target, the test name passed with --exact when fuzzing, replaying, displaying and the auto-generation name passed are exactly the listed harness's name and its sibling `auto_generate` in the same module; different targets run different tests; the environment of the process is the command's except for exactly the variables set for the mode.", "quantifier": "every listing and every discovered target", "why_tests_cant": "All names.", "anchors": ["cargo-test-fuzz/src/lib.rs:for_each_entry", "cargo-test-fuzz/src/lib.rs:fuzz_command", "cargo-test-fuzz/src/lib.rs:auto_generate_corpus", "cargo-test-fuzz/src/lib.rs:targets"]}
{"id": "C24", "title": "Target selection", "statement": "With a name pattern the selected targets are exactly those whose name contains the pattern (equals it, with --exact), in order, keeping their executable; --exact never selects more; without a pattern everything is selected; if nothing is selected the fuzz/display/replay commands fail with `Found no fuzz targets` naming the pattern.", "quantifier": "every pattern, flag and target list", "why_tests_cant": "All strings.", "anchors": ["cargo-test-fuzz/src/lib.rs:filter_executable_targets", "cargo-test-fuzz/src/lib.rs:filter_targets", "cargo-test-fuzz/src/lib.rs:flatten_executable_targets", "cargo-test-fuzz/src/lib.rs:match_message"]}
{"id": "C25", "title": "Version compatibility check", "statement": "For release versions the check accepts exactly the pairs in the same semver compatibility class, whichever is newer, and suggests an upgrade exactly if the crate's dependency is newer than the tool; a missing dependency is an error; a pre-release tool is never rejected. With pre-release tags, a dependency suits a released tool exactly if one of the two versions, as a caret requirement, allows the other (precedence of tags included). If some selected executable does not suit cargo-test-fuzz (its test-fuzz version) or cargo-afl (its afl version), the whole command only looks and does not succeed.", "quantifier": "every pair of versions", "why_tests_cant": "All version triples and pre-release tags.", "anchors": ["cargo-test-fuzz/src/lib.rs:check_dependency_version", "cargo-test-fuzz/src/lib.rs:as_version_req", "cargo-test-fuzz/src/lib.rs:check_test_fuzz_and_afl_versions"]}
{"id": "C26", "title": "Instrumentation choice", "statement": "Coverage and fuzzing instrumentation are never requested together (so the target-directory assertion cannot fire); display/replay of an object is uninstrumented unless its `-instrumented` variant is named; plain fuzzing is instrumented; invalid --coverage/--replay objects are rejected before anything is built or run.", "quantifier": "every option combination", "why_tests_cant": "The option space is a product of many options; tests exercise few combinations.", "anchors": ["cargo-test-fuzz/src/lib.rs:include_fuzzing_instrumentation", "cargo-test-fuzz/src/lib.rs:include_coverage_instrumentation", "cargo-test-fuzz/src/lib.rs:run_without_exit_code", "internal/src/dirs.rs:target_directory"]}
{"id": "C27", "title": "--list and --no-run are read-only", "statement": "With --list or --no-run, whatever other options are given, nothing is consolidated, removed, replayed or fuzzed.", "quantifier": "every option combination, every project and file-system state", "why_tests_cant": "All combinations.", "anchors": ["cargo-test-fuzz/src/lib.rs:run_without_exit_code"]}
{"id": "C28", "title": "Reset removes exactly the selected targets' fuzzing data", "statement": "After a reset that succeeds without input/output errors nothing remains at or below the output directory of the selected targets and every other path (all corpora, generic args, other targets' output) is unchanged; even if it fails or is interrupted, no path outside the selected targets' output directories changes, what is left of these is as it was (and a tree), and a second reset that succeeds leaves exactly what an uninterrupted one leaves. If it cannot be determined whether the output directories exist, a reset succeeds and removes nothing.", "quantifier": "every file-system state, every selection, every failure and crash point", "why_tests_cant": "All file systems and crash points.", "anchors": ["cargo-test-fuzz/src/lib.rs:reset"]}
{"id": "C29", "title": "Consolidation moves everything to the corpus", "statement": "After a successful --consolidate, each crash, hang and queue entry (other than README.txt and .state) of the target is in its corpus, all earlier corpus entries are still there, nothing else was added, and the target's output directory is gone; other targets are untouched. The file system stays a tree, also if consolidating is interrupted.", "quantifier": "every file-system state and directory enumeration order", "why_tests_cant": "All directory contents and enumeration orders.", "anchors": ["cargo-test-fuzz/src/lib.rs:consolidate", "cargo-test-fuzz/src/lib.rs:reset", "cargo-test-fuzz/src/lib.rs:run_without_exit_code"]}
{"id": "C30", "title": "Consolidation never loses an input", "statement": "At every point of a consolidation, including after any I/O error or crash, each crash, hang and queue input of the target is still in the output directory or completely in the corpus; the removal starts only after every input has been completely copied. However it was interrupted, a second consolidation that succeeds leaves the same files as an uninterrupted one; so does a reset if the copying had finished (a second consolidation then fails if one of the three directories is gone).", "quantifier": "every file-system state, every failure and crash point, every partial effect", "why_tests_cant": "Crash points and partial effects cannot be enumerated by tests.", "anchors": ["cargo-test-fuzz/src/lib.rs:consolidate", "cargo-test-fuzz/src/lib.rs:reset"]}
{"id": "C31", "title": "When --consolidate-all succeeds", "statement": "A user expects `--consolidate-all` to consolidate and reset any number of selected targets. That is so exactly if --reset-all is given too or exactly one target is selected. Otherwise the reset step's assertion fails: the command never succeeds, nothing in an output directory is changed, and if copying succeeded the command panics after it and before removing anything.", "quantifier": "every list of executables and targets", "why_tests_cant": "The failing case needs several executables; no test uses the option.", "anchors": ["cargo-test-fuzz/src/lib.rs:run_without_exit_code", "cargo-test-fuzz/src/lib.rs:reset"]}
{"id": "C32", "title": "Each stored input is reported exactly once", "statement": "Display/replay/coverage of a directory runs the harness exactly once for each file other than README.txt and .state (or just shows the contents, for generic args, running nothing), feeding it that file, and prints one report per file; a missing directory is an error mentioning `cargo test` exactly for the objects that `cargo test` produces; a directory that cannot be looked at is reported as missing, and nothing is run. Harnesses may change any files except those directories meanwhile; files that no harness changes are left as they are.", "quantifier": "every directory contents and enumeration order, every harness behaviour and effect on other files", "why_tests_cant": "All directories and behaviours.", "anchors": ["cargo-test-fuzz/src/lib.rs:for_each_entry", "cargo-test-fuzz/src/lib.rs:flags_and_dir"]}
{"id": "C33", "title": "Crashing or hanging inputs do not stop a replay", "statement": "A failing or timed-out input never makes the command fail and never prevents the remaining inputs from being run; a timed-out harness is killed and reaped before the next one is started; the closing message is determined by what was seen.", "quantifier": "every sequence of harness outcomes", "why_tests_cant": "All sequences.", "anchors": ["cargo-test-fuzz/src/lib.rs:for_each_entry"]}
{"id": "C34", "title": "At most N fuzzers, at most one per target", "statement": "At every moment the number of running fuzzers is at most the configured number of cpus and no target is fuzzed by two processes at once; the running count equals the number of occupied slots; the configured number is what was asked for, bounded by what there is, and one less than there are by default.", "quantifier": "every number of targets and cpus, every sequence of child events", "why_tests_cant": "All schedules of child exits.", "anchors": ["cargo-test-fuzz/src/lib.rs:fuzz"]}
{"id": "C35", "title": "The scheduler's internal assertions hold", "statement": "No assertion, unreachable!, index or `Child for token` panic in the fuzzing loop can fire, for any behaviour of the children.", "quantifier": "every number of targets and cpus, every event schedule", "why_tests_cant": "All schedules.", "anchors": ["cargo-test-fuzz/src/lib.rs:fuzz"]}
{"id": "C36", "title": "Sufficient cpus: each target is fuzzed once, then the command ends", "statement": "With at least as many cpus as targets, each target is started exactly once, in order, before the first wait; the loop ends as soon as all fuzzers have ended and waits only while one is running.", "quantifier": "every number of targets, every event schedule", "why_tests_cant": "All schedules.", "anchors": ["cargo-test-fuzz/src/lib.rs:fuzz"]}
{"id": "C37", "title": "Time slicing is round-robin", "statement": "With fewer cpus than targets, between two consecutive starts of a target every other target was considered, and was started then unless it was running or had failed at that moment. No target is starved: in an endless execution in which no fuzzer runs for ever, each target fails or is started again and again, exactly if there are never fewer targets left than cpus.", "quantifier": "every number of targets and cpus, every event schedule, finite or endless", "why_tests_cant": "All schedules.", "anchors": ["cargo-test-fuzz/src/lib.rs:fuzz"]}
{"id": "C38", "title": "When fuzzers' exits are noticed", "statement": "A user expects that, whenever fuzzers are running, the loop waits for their events after at most one pass over the targets. In every execution that is so exactly as long as there are at least as many cpus as targets, or at least as many targets that have not failed as cpus. Otherwise the loop never waits again: it spins for ever (livelock), and such states are reached.", "quantifier": "every number of targets and cpus, every event schedule", "why_tests_cant": "The livelock needs particular failure counts; a test would hang rather than fail.", "anchors": ["cargo-test-fuzz/src/lib.rs:fuzz"]}
{"id": "C39", "title": "First run starts from the corpus, later runs resume", "statement": "The first fuzzer started for a target gets the corpus directory as input (unless --resume), every later one resumes the saved session (`-i -`).", "quantifier": "every number of targets and cpus, every event schedule", "why_tests_cant": "All schedules.", "anchors": ["cargo-test-fuzz/src/lib.rs:fuzz", "cargo-test-fuzz/src/lib.rs:fuzz_command"]}
{"id": "C40", "title": "Failed targets are never restarted and all-failed is an error", "statement": "A target whose fuzzer failed or did not end by a programmatic abort is never started again; the command fails with `All targets failed to start` exactly if all targets have failed, and a failing target does not stop the others.", "quantifier": "every event schedule", "why_tests_cant": "All schedules.", "anchors": ["cargo-test-fuzz/src/lib.rs:fuzz"]}
{"id": "C41", "title": "Exit-code contract", "statement": "With --exit-code: status 1 exactly if some fuzzer ended by a programmatic abort without reaching its time limit, 2 exactly if an error was returned, 0 only if at least one fuzzer reached its time limit and all others reached it or failed; --exit-code implies --no-ui. Without it, status 0 exactly if no error.", "quantifier": "every option combination and event schedule", "why_tests_cant": "All schedules and outcomes.", "anchors": ["cargo-test-fuzz/src/lib.rs:run", "cargo-test-fuzz/src/lib.rs:fuzz"]}
{"id": "C42", "title": "Output processing does not depend on chunking", "statement": "However a fuzzer's output is split into reads, the lines processed are exactly the lines of the output up to its last newline, each once and in order; nothing is lost or duplicated and the unprocessed remainder contains no newline.", "quantifier": "every byte stream and every way to split it into reads", "why_tests_cant": "All chunkings.", "anchors": ["cargo-test-fuzz/src/lib.rs:Child::read_lines"]}
{"id": "C43", "title": "Output is attributed to the right target", "statement": "Every printed line is printed under the heading of the target whose fuzzer wrote it, and the time-limit/abort indications of a fuzzer are set exactly by its own lines.", "quantifier": "every interleaving of the outputs of the fuzzers", "why_tests_cant": "All interleavings.", "anchors": ["cargo-test-fuzz/src/lib.rs:fuzz", "cargo-test-fuzz/src/lib.rs:Child::print_line"]}
{"id": "C44", "title": "The UI fits the terminal", "statement": "Each refresh prints nothing or exactly one row fewer than the terminal height, divided over the fuzzers as evenly as possible (differences at most one row), showing the last lines of each; the buffer of each fuzzer is cut to its share.", "quantifier": "every terminal size, number of children and buffer contents", "why_tests_cant": "All sizes.", "anchors": ["cargo-test-fuzz/src/lib.rs:Child::refresh"]}
{"id": "C45", "title": "Truncation to the terminal width", "statement": "Cutting a line to a width returns the shortest prefix that shows that many visible bytes (the whole line if there are fewer), or panics; it never returns anything else. It panics at no width exactly if the line is ASCII, provided that each of its characters shows something; if a character of more than one byte shows something, there is a width at which it panics. A divider has the name and dashes up to the width exactly, or is the name cut in this way.", "quantifier": "every string and width", "why_tests_cant": "All strings; the panic needs a multi-byte character at a probed offset.", "anchors": ["cargo-test-fuzz/src/lib.rs:prefix_with_width", "cargo-test-fuzz/src/lib.rs:divider_with_width"]}
{"id": "C46", "title": "Fuzzer command line", "statement": "The command line has the target's output directory, exactly one session name, the time bound (slice if cpus are insufficient, else --max-total-time if given, else none), the timeout in milliseconds iff given, the user's extra arguments in order before `--`, then the executable and the harness.", "quantifier": "every option combination, every target", "why_tests_cant": "All option values.", "anchors": ["cargo-test-fuzz/src/lib.rs:fuzz_command"]}
{"id": "C47", "title": "--timeout is converted to milliseconds without overflow", "statement": "The millisecond value passed to the fuzzer is 1000 times the given number of seconds; this needs timeout*1000 < 2^64, otherwise the multiplication overflows (panic or wrong value).", "quantifier": "every 64-bit timeout", "why_tests_cant": "2^64 values; the failing ones are rare.", "anchors": ["cargo-test-fuzz/src/lib.rs:fuzz_command"]}
{"id": "C48", "title": "serde combinators are transparent and round-trip", "statement": "For every nesting of the reference, mutable reference, Mutex and RwLock combinators around a type, the serialised form is that of the innermost value, and deserialising gives a value with the same structure and contents, unlocked and unpoisoned.", "quantifier": "every nesting of combinators and every value", "why_tests_cant": "Nesting depth is unbounded.", "anchors": ["serde_combinators/src"]}
{"id": "C49", "title": "Serialising a lock never blocks", "statement": "Serialising through a Mutex/RwLock combinator fails with an error, instead of blocking, exactly if a lock on the path is held exclusively (or, for Mutex, at all) or poisoned.", "quantifier": "every nesting and every lock state", "why_tests_cant": "All lock states at all depths.", "anchors": ["serde_combinators/src/mutex.rs", "serde_combinators/src/rw_lock.rs"]}
{"id": "C50", "title": "dont_care! and leak!", "statement": "dont_care! types take no space in the recorded bytes and read back as the given expression, leaving the rest of the input in place; leak! conversions give back a reference to an equal value.", "quantifier": "every value and every surrounding data", "why_tests_cant": "All surrounding values.", "anchors": ["test-fuzz/src/utils.rs"]}
{"id": "C51", "title": "Self is expanded everywhere", "statement": "In the types of the generated code every `Self` is replaced by the impl's type and `Self::A` by the trait-qualified path, at any depth. Exception found in the code: `Self` inside the generic arguments of an associated type (`Self::A<Self>`) is left as is.", "quantifier": "every type", "why_tests_cant": "Types are an infinite recursive family.", "anchors": ["macro/src/type_utils.rs:expand_self"]}
{"id": "C52", "title": "impl_generic_args are substituted simultaneously", "statement": "Each type parameter of the impl is replaced, at every depth of the self type and trait path, by the positionally corresponding argument (lifetimes may be omitted), replacements are not rewritten again, and other types are unchanged; too many arguments are rejected.", "quantifier": "every type, parameter list and argument list", "why_tests_cant": "Infinite family of types.", "anchors": ["macro/src/type_utils.rs:map_type_generic_params", "macro/src/lib.rs:generic_params_map"]}
{"id": "C53", "title": "Turbofish insertion only inserts `::`", "statement": "The tokens of the call path are the tokens of the type with `::` inserted before generic argument lists only: removing the inserted tokens gives back the type's tokens; the first argument list of a path is always marked (a later one of the same path may be missed, and one that is written with `::` gets it twice); the rewriting terminates.", "quantifier": "every type", "why_tests_cant": "Infinite family of token lists.", "anchors": ["macro/src/type_utils.rs:type_as_turbofish", "macro/src/type_utils.rs:path_as_turbofish"]}
{"id": "C54", "title": "Generated module names", "statement": "The module is named `<rename>_fuzz__`, or `<Self>_<fn>_fuzz__` in an impl, or `<fn>_fuzz__`; two targets with different names in the same scope and impl type get different modules; the target name shown by cargo test-fuzz is the module name without the suffix.", "quantifier": "every identifier", "why_tests_cant": "All identifiers.", "anchors": ["macro/src/lib.rs:mod_ident", "macro/src/type_utils.rs:type_base"]}
{"id": "C55", "title": "Generated field names are distinct", "statement": "The fields of the generated argument struct have pairwise distinct names if no parameter of the target is itself named `_<number>`; otherwise they can clash. The names that the macros make up are even distinct in a whole crate.", "quantifier": "every parameter list and every number of earlier expansions", "why_tests_cant": "All parameter lists and expansion histories.", "anchors": ["macro/src/lib.rs:anonymous_ident", "macro/src/lib.rs:map_arg", "macro/src/lib.rs:type_generic_phantom_idents_and_types"]}
{"id": "C56", "title": "test_fuzz_impl preserves the impl", "statement": "All items of the impl are kept, in order; items without the attribute are unchanged; for each function with the attribute one module is produced, in order, and just that attribute is removed from the function.", "quantifier": "every impl block", "why_tests_cant": "All item lists.", "anchors": ["macro/src/lib.rs:map_impl_items", "macro/src/lib.rs:map_impl_item_fn", "macro/src/lib.rs:is_test_fuzz"]}
{"id": "C57", "title": "Recorded generic arguments can be displayed", "statement": "For each instantiation with which a target was called in tests, displaying generic args / impl generic args shows the comma-separated type names, each distinct instantiation once.", "quantifier": "every sequence of calls and instantiations", "why_tests_cant": "All call sequences.", "anchors": ["runtime/src/lib.rs:write_generic_args", "runtime/src/lib.rs:write_impl_generic_args", "cargo-test-fuzz/src/lib.rs:for_each_entry"]}
{"id": "C58", "title": "Debug fallback shows the type", "statement": "For a value whose type has no Debug, the displayed text is `<unknown of type T>` with T the exact type name, whatever T contains.", "quantifier": "every type name", "why_tests_cant": "All type names (nested generics ending in `>`).", "anchors": ["runtime/src/lib.rs:DebugUnimplemented", "runtime/src/lib.rs:TryDebug"]}
{"id": "C59", "title": "Dependency versions are those of the executable's own package", "statement": "The test-fuzz version checked for an executable is that of its package's direct dependency named test-fuzz, and the afl version that of this test-fuzz package's dependency; a missing graph, node or package is an error.", "quantifier": "every dependency graph", "why_tests_cant": "All graphs.", "anchors": ["cargo-test-fuzz/src/lib.rs:test_fuzz_and_afl_versions", "cargo-test-fuzz/src/lib.rs:package_dependency", "cargo-test-fuzz/src/lib.rs:package"]}
{"id": "C60", "title": "Coverage environment points into the coverage target directory", "statement": "Each variable reported by `cargo llvm-cov show-env` is passed on with its quotes removed and, if its value is a path below the workspace target directory, with that prefix replaced by the coverage target directory; other values are unchanged; without --coverage none is passed.", "quantifier": "every show-env output", "why_tests_cant": "All outputs and paths.", "anchors": ["cargo-test-fuzz/src/lib.rs:llvm_envs", "cargo-test-fuzz/src/lib.rs:replace_target_dir"]}
{"id": "C61", "title": "Command conversion preserves the command", "statement": "Converting a std Command to a subprocess Exec preserves program, arguments, working directory and the environment the child gets (sets, overrides and removals).", "quantifier": "every command and parent environment", "why_tests_cant": "All commands and environments.", "anchors": ["cargo-test-fuzz/src/to_exec.rs"]}
{"id": "C62", "title": "Build command", "statement": "The build is `cargo [afl] test --no-run` with exactly the options that were given passed on, a separate --target-dir exactly if instrumented or for coverage, and yields exactly the test executables among the compiler artifacts, in order; a failing build is an error.", "quantifier": "every option combination and message stream", "why_tests_cant": "All option combinations and message streams.", "anchors": ["cargo-test-fuzz/src/lib.rs:build"]}
{"id": "C63", "title": "Retry helper", "statement": "retry(n, op) calls op until the first success but at most n times and returns that success, or the last error.", "quantifier": "every n >= 1 and every sequence of results", "why_tests_cant": "All result sequences.", "anchors": ["testing/src/retry.rs"]}
{"id": "C64", "title": "Artifact directories and --manifest-path", "statement": "A user expects the directories consulted to be those of the workspace given by --manifest-path. In the code they do not depend on it but on the working directory and TEST_FUZZ_MANIFEST_PATH alone; they are those of the given workspace exactly if it is the same workspace (of workspaces that do not contain each other).", "quantifier": "every working directory, environment and manifest path", "why_tests_cant": "All project layouts; tests always run inside the same workspace.", "anchors": ["internal/src/dirs.rs:target_directory", "cargo-test-fuzz/src/lib.rs:target_directory"]}
{"id": "C65", "title": "Instrumentation does not change the target's behaviour", "statement": "For every call, the instrumented function returns/panics exactly as the original body on the same arguments, unless recording itself panics; recording precedes the body, so a crash of the body does not lose the record.", "quantifier": "every argument, body behaviour and environment", "why_tests_cant": "All bodies and arguments.", "anchors": ["macro/src/lib.rs:map_method_or_fn"]}
{"id": "C66", "title": "Single-target operations touch nothing unless exactly one target is selected", "statement": "--consolidate or --reset with a selection other than exactly one target aborts before any file is touched.", "quantifier": "every selection and file-system state", "why_tests_cant": "All selections.", "anchors": ["cargo-test-fuzz/src/lib.rs:consolidate", "cargo-test-fuzz/src/lib.rs:reset"]}
{"id": "C67", "title": "When the macro succeeds", "statement": "Expanding a target succeeds exactly if: in a fuzzing build, arguments are given for non-lifetime parameters of the impl and of the function; there are no more lifetime arguments, or arguments for the impl, than parameters; each parameter pattern binds at most one identifier, each conversion is used, `Self` can be expanded and the impl's arguments can be substituted, and the module is not called after a raw identifier. In a fuzzing build the harness is then never empty, except with only_generic_args; and what a fuzzing build accepts, other builds accept with the same result. Exactly when a module has a harness and a coverage warning is determined. If expanding does not succeed, it panics.", "quantifier": "every impl, function and attribute", "why_tests_cant": "All items.", "anchors": ["macro/src/lib.rs:map_method_or_fn", "macro/src/lib.rs:is_generic"]}
{"id": "C68", "title": "Lifetime parameters of the argument struct are filled", "statement": "In the type of the harness's result, the arguments for the argument struct are those given by the user followed by `'static` for each lifetime parameter that is not filled; every type parameter that needs it is used by a phantom field, and the call in the harness names the target with the arguments that were given.", "quantifier": "every impl, function and attribute", "why_tests_cant": "All parameter lists.", "anchors": ["macro/src/lib.rs:map_method_or_fn"]}
{"id": "C69", "title": "From tests to replay, end to end", "statement": "After any test code has run – calling any instrumented functions, nested, with panics caught or not – and no recording failed, the corpus directory of a target holds its earlier files and exactly one file per distinct argument tuple with which that target was called and which had to be recorded. If it was empty before, replaying it starts the target's harness exactly once for each of these inputs and for nothing else, and each such harness calls the target exactly once, with the arguments of a recorded call.", "quantifier": "every program, target, environment, directory listing and file system", "why_tests_cant": "All programs and call sequences; composition of macro, runtime, naming and command.", "anchors": ["runtime/src/lib.rs:write_args", "macro/src/lib.rs:map_method_or_fn", "internal/src/dirs.rs:corpus_directory_from_args_type", "cargo-test-fuzz/src/lib.rs:for_each_entry", "cargo-test-fuzz/src/lib.rs:flags_and_dir"]}
{"id": "C70", "title": "Command line", "statement": "The command accepts exactly the command lines made of its options in any order and any of their spellings (`--name value`, `--name=value`, `-p`, the alias of --pretty), each at most once except --features, with acceptable values (object names, 64-bit numbers), at most one target name, and arbitrary arguments after `--`; it runs with exactly the options they mean, defaults included; every combination can be asked for; any other command line has no effect and ends with status 2, or 0 if help or the version is asked for; so does running the program other than as a subcommand of cargo.", "quantifier": "every list of arguments", "why_tests_cant": "Unbounded argument lists and all combinations and orders of 30 options.", "anchors": ["cargo-test-fuzz/src/bin/cargo_test_fuzz/transition.rs:TestFuzzWithDeprecations", "cargo-test-fuzz/src/bin/cargo_test_fuzz/transition.rs:cargo_test_fuzz", "cargo-test-fuzz/src/bin/cargo_test_fuzz/main.rs:main"]}
{"id": "C71", "title": "The text of versions", "statement": "Reading a version accepts exactly the texts of the semver grammar with 64-bit numbers, each with one meaning; printing and reading gives the same version; turning any version that was read into a requirement never panics and gives the caret requirement of exactly that version; the version of cargo-afl is found exactly in outputs `cargo-afl <version>` with white space or nothing after it.", "quantifier": "every text, version and output", "why_tests_cant": "All texts; the code has an `expect` that must never fail.", "anchors": ["cargo-test-fuzz/src/lib.rs:as_version_req", "cargo-test-fuzz/src/lib.rs:cargo_afl_version", "cargo-test-fuzz/src/lib.rs:cached_cargo_afl_version"]}
{"id": "C72", "title": "What the command does is decided by the options", "statement": "Every combination of options asks for exactly one of five modes: listing, building only, consolidating/resetting, replaying/displaying, fuzzing. Everything the command does after the build belongs to that mode; in particular no harness is started and no fuzzer runs unless asked for. Consolidating happens before resetting, on the selected targets, and the file system afterwards is the one these operations give.", "quantifier": "every option combination, environment and state", "why_tests_cant": "All combinations of 30 options and all environments.", "anchors": ["cargo-test-fuzz/src/lib.rs:run_without_exit_code"]}
{"id": "C73", "title": "Recorded names are SHA-1 in hexadecimal", "statement": "The name of a recorded file is the SHA-1 of its contents, as defined by FIPS 180-4 over bits and 32-bit words, in lower-case hexadecimal.", "quantifier": "every recorded value, every length of data", "why_tests_cant": "A wrong padding or a wrong round would show up only for particular lengths; and the definition is over unbounded messages.", "anchors": ["runtime/src/lib.rs:write_data"]}
{"id": "C74", "title": "Persistent mode", "statement": "Compiled for persistent mode and fuzzing, one process calls the target once for each input that AFL supplies and that decodes, in order, up to and including the first input the target does not survive, which crashes the process; it succeeds just if each input, given to a process of its own without persistent mode, would succeed; nothing is recorded. Compiled for persistent mode, displaying and replaying show neither arguments nor results.", "quantifier": "every sequence of inputs, target behaviour and environment", "why_tests_cant": "Sequences of inputs are unbounded; the persistent build is only smoke-tested.", "anchors": ["macro/src/lib.rs:map_method_or_fn", "macro/src/lib.rs:549-656"]}
{"id": "C75", "title": "execute_with", "statement": "With execute_with, the harness runs the given function on a closure that calls the target with the decoded arguments: the process aborts (fuzzing) if a panic begins in the function or the target, the function's result is the result that is shown, and the test fails just if a panic gets out of the function. If the function sets something up, calls the closure once, and cleans up, the harness does and yields the same as without execute_with.", "quantifier": "every function, target behaviour, input and environment", "why_tests_cant": "All wrappers and behaviours.", "anchors": ["macro/src/lib.rs:map_method_or_fn", "macro/src/lib.rs:602-609"]}
{"id": "C76", "title": "The bincode format", "statement": "With the feature serde_bincode: what is written for a value is what bincode's grammar says; a file is read as a value exactly if it begins with a text of the grammar for which the decoder claims at most 1 GiB; so recorded arguments are replayed with the same values just if at most 1 GiB is claimed for them, which depends on the types, not on the size of the file: 2^27 small u64s take 128 MiB and are not read back.", "quantifier": "every schema and value, every trailing byte string, every parameter list", "why_tests_cant": "All values of all types; the limit is far beyond what a test can reach.", "anchors": ["internal/src/serde_format.rs:serialize", "internal/src/serde_format.rs:deserialize"]}
{"id": "C77", "title": "What is shown for arguments and results", "statement": "Displaying an input shows `Args` with one field per parameter of the target, in order, each with its name (`self` for a receiver) and the text of its value – what its Debug writes, or `<unknown of type T>` – on one line, or with --pretty one field per line with every further line of a value indented by four more spaces; then a newline, and just an empty line if the input does not decode. Replaying shows the result as `Ret(..)` once the target has returned. With --pretty one can tell the text of each value from what is shown, if the values are laid out as the builders of the standard library do it; on one line one cannot.", "quantifier": "every parameter list, every text of every value (any number of lines), every environment", "why_tests_cant": "All texts at all nesting depths.", "anchors": ["macro/src/lib.rs:map_method_or_fn", "macro/src/lib.rs:map_arg", "runtime/src/lib.rs:TryDebug"]}
{"id": "C78", "title": "Generic parameters and arguments", "statement": "In the generated code, what is declared has parameters with distinct names, and each application of it has arguments of the right number, kinds and order (lifetimes first), exactly if neither the impl nor the target has a constant parameter and no type parameter is called `R` (with only_generic_args: always). The arguments given by the user are right wherever they are used just if they contain as many types as there are parameters, no constants, and all or none of the lifetimes. All bounds and predicates of impl and function are kept, and what is read is required to be deserializable.", "quantifier": "every list of parameters, every list of arguments", "why_tests_cant": "All parameter lists, in any order; for wrong ones the failure is a compile error in generated code.", "anchors": ["macro/src/lib.rs:map_method_or_fn", "macro/src/lib.rs:type_idents", "macro/src/lib.rs:combine_generics", "macro/src/lib.rs:restrict_to_deserialize"]}
{"id": "C79", "title": "Options of the attributes", "statement": "A list of options of `test_fuzz` is accepted exactly if each item is one of the nine options with a value of the right kind (a string; for a flag a word, a truth value or one in quotes; for rename an identifier) and none but `convert` occurs twice; the options then mean what they say, in any order but for that of the conversions, and all combinations can be asked for. The texts are understood exactly if each conversion is of two types, and generic arguments, bounds and execute_with are what they should be; otherwise the macro panics. Without parentheses there are no options, and test_fuzz_impl takes none.", "quantifier": "every list of items, every syntax of types, arguments and expressions", "why_tests_cant": "All lists and orders of options.", "anchors": ["macro/src/lib.rs:TestFuzzOpts", "macro/src/lib.rs:opts_from_attr", "macro/src/lib.rs:parse_generic_arguments", "macro/src/lib.rs:map_method_or_fn"]}
{"id": "C80", "title": "Names in the generated module", "statement": "The types of a target, written again in the generated module (also inside of write_args, read_args and the block with Ret), stand for what they stand for at the target, unless they begin with `super` (one level off) or with `Args`, `UsingReader` or `HasRetTy` (mistaken for what is generated), or `Ret` in the type of the result, or `Auto` or `AutoFallback` where values are generated. `Args` is found under the module's name from everywhere it is used; but for a target inside of a function it is not, and the function's items are not seen, though the target itself sees both.", "quantifier": "every crate (modules, imports, preludes), every place of the target, every path", "why_tests_cant": "All crates and paths; a capture shows up only with particular names.", "anchors": ["macro/src/lib.rs:map_method_or_fn"]}
{"id": "C81", "title": "Which types are shown and have generated values", "statement": "An argument is shown as its Debug shows it, and values are generated for it, as far as the traits needed follow from the bounds of the target: for a type without parameters, exactly if it has the traits (and the values are those of the table in README.md); for a type with parameters, whatever is known is true of every type that it stands for, and the values are some of those of that type; but an argument whose type is a parameter without the bound is never shown and makes that nothing is generated, even if the generic arguments have the traits. Results are shown by the actual type. Fields for parameters never prevent generation.", "quantifier": "every set of impls and supertraits (closed under rules), every bound, type and instantiation", "why_tests_cant": "All types, impls and bounds; the fallback is chosen silently.", "anchors": ["runtime/src/lib.rs:TryDebug", "runtime/src/lib.rs:auto_impl!", "runtime/src/lib.rs:auto!", "runtime/src/traits.rs", "macro/src/lib.rs:map_method_or_fn"]}
{"id": "C82", "title": "Which bounds a target needs", "statement": "If the generated code compiles, arguments are serializable and cloneable for every instantiation of the type parameters, and deserializable for the generic arguments given. A target that is not generic compiles exactly if its arguments are Clone, Serialize and Deserialize. Parameters that occur in arguments must be Serialize by the bounds of the target, but need not be Deserialize; what the option `bounds` says must follow from the bounds of the target, and an argument of type `T::A` needs the option; that it is deserializable, unlike for parameters, must be stated by the target. For every target, with any option `bounds` and any arguments, these conditions together are exactly when the generated code compiles.", "quantifier": "every set of impls, every generic target", "why_tests_cant": "All types and bounds; a missing bound is a compile error in generated code.", "anchors": ["macro/src/lib.rs:map_method_or_fn", "macro/src/lib.rs:restrict_to_deserialize", "macro/src/lib.rs:type_generic_phantom_idents_and_types"]}
{"id": "C83", "title": "The user interface does not change the fuzzing", "statement": "With or without user interface, and on whatever terminal: if the fuzzers and the operating system behave the same, the same fuzzers are started in the same order by the same commands (but for AFL_NO_UI), their output is understood the same way, the same targets count as failed and the command ends at the same moment with the same result; the only difference the interface can make is a panic while drawing, and none for ASCII names and output on a terminal. The warning about a fuzzer that failed shows nothing of its output without the interface, and its last lines with it.", "quantifier": "every configuration, sequence of events and terminal", "why_tests_cant": "A relation between two runs of unbounded length; tests run with --no-ui only.", "anchors": ["cargo-test-fuzz/src/lib.rs:fuzz", "cargo-test-fuzz/src/lib.rs:Child", "cargo-test-fuzz/src/lib.rs:fuzz_command"]}
{"id": "C84", "title": "The life of an input, over any history", "statement": "In any sequence of recordings (interrupted or not), fuzzers, and runs of cargo test-fuzz that consolidate or reset any targets (failing or interrupted anywhere): an input recorded or found for a target is afterwards in its corpus or among its findings, unless the target was reset without consolidating or the recording of that very input was interrupted. Once in the corpus it stays there, also over resets, unless writing that very input again is interrupted. A consolidation that succeeds brings all findings to the corpus. And nothing gets into a corpus but inputs recorded or found for that target, under their names (interrupted ones may be incomplete).", "quantifier": "every history of any length, every target, input, and point of interruption", "why_tests_cant": "Histories are unbounded and failures can happen at any operation; tests do one step on a clean directory.", "anchors": ["runtime/src/lib.rs:write_data", "cargo-test-fuzz/src/lib.rs:consolidate", "cargo-test-fuzz/src/lib.rs:reset", "internal/src/dirs.rs:corpus_directory_from_target"]}
{"id": "C85", "title": "What displaying and replaying print", "statement": "For each stored input: its name, what its harness wrote (as text; ill-formed parts as U+FFFD, one per maximal subpart, and nothing of the ASCII lost), a newline if there is none, and Timeout, or the status if nothing was written. Whatever harnesses write and wherever the command stops, each entry begins on a new line, except after an empty list of types. With several targets each has a heading that fills the terminal's width; for names that are not ASCII there is a width at which printing it panics.", "quantifier": "every byte sequence, every report, every run", "why_tests_cant": "All byte sequences (truncated characters at a time limit) and all runs.", "anchors": ["cargo-test-fuzz/src/lib.rs:for_each_entry", "cargo-test-fuzz/src/lib.rs:run_without_exit_code", "cargo-test-fuzz/src/lib.rs:divider_with_width"]}
{"id": "C86", "title": "Recording by many tests at once", "statement": "However many tests (threads and processes) record into any directories at the same time, in whatever interleaving of their system calls – creating the same missing directories, truncating and writing the same files –: no recording fails; at any time what one test has recorded is complete in its file unless another is just writing the same again, and nothing else was touched; each test needs a bounded number of its own steps, whatever the others do; and when all are finished, the file system is exactly as if everything had been recorded one after the other, in any order.", "quantifier": "any number of tests, recordings and steps, every interleaving and chunk size, every file system where nothing is in the way", "why_tests_cant": "The number of interleavings is unbounded; a race shows up once in a million runs, if at all.", "anchors": ["macro/src/type_utils.rs:write_data", "macro/src/lib.rs:write_args", "internal/src/dirs.rs:corpus_directory_from_args_type"]}
{"id": "C87", "title": "Tests and consolidations at the same time", "statement": "However many tests record and however many runs of `cargo test-fuzz --consolidate(-all)` copy and remove output directories at the same time, in whatever interleaving of their system calls, and whoever dies: no input that was found before is lost – it is where it was found, or complete in the corpus, unless somebody is just writing it there; recording never fails; what a test has recorded stays; when a consolidation has succeeded its inputs are in the corpus and its output directories are gone; nothing else changes. If all succeed, the resulting file system does not depend on the interleaving, and it is the one that `consolidate` and `reset` produce when they run alone after the tests. This does not extend to a running fuzzer: what it finds between the listing and the removal is lost though the consolidation succeeds.", "quantifier": "any number of processes, targets, directories, files and steps, every interleaving", "why_tests_cant": "The number of interleavings is unbounded, and the loss of an input goes unnoticed.", "anchors": ["cargo-test-fuzz/src/lib.rs:consolidate", "cargo-test-fuzz/src/lib.rs:reset", "macro/src/type_utils.rs:write_data"]}
{"id": "C88", "title": "What the width of a line counts", "statement": "Lines of output and headings are cut by what they show, according to strip_ansi_escapes: characters count, control characters except line feeds, control sequences (colours), operating system commands, device control strings and other strings do not; a longer prefix of a line shows what a shorter one shows, and perhaps more. An ASCII line, coloured or not, is cut without a panic so that what is left shows exactly the first `width` characters that the line shows. A text without control characters can be cut to any width without a panic exactly if it is ASCII; for a target whose name is not, there is a width of the terminal at which displaying and replaying panic.", "quantifier": "every byte sequence, every width, every nesting of text and sequences", "why_tests_cant": "All byte sequences, including truncated characters and sequences; the search relies on monotonicity for every prefix.", "anchors": ["cargo-test-fuzz/src/lib.rs:prefix_with_width", "cargo-test-fuzz/src/lib.rs:divider_with_width"]}
{"id": "C89", "title": "What a fuzzer found is reproduced", "statement": "A fuzzed process dies on an input exactly if the input decodes to arguments with which a panic begins in the target or the process ends; it was called with these arguments. `--replay crashes` looks where the fuzzer leaves such inputs, runs the harness on each of them, and reports each as failing, except for those that take longer than the timeout and those with which the target catches the panic itself: these are exactly the inputs on which the fuzzer and a replay disagree. The environments arranged by the program are such that fuzzers fuzz (unless the user has switched on another purpose) and replays replay (whatever the user has switched on). After a consolidation the same holds for a replay of the corpus.", "quantifier": "every target, body, input, environment, set of stored inputs", "why_tests_cant": "All programs and all inputs; the fuzzer and the replay are different processes with different environments and panic hooks.", "anchors": ["cargo-test-fuzz/src/lib.rs:for_each_entry", "cargo-test-fuzz/src/lib.rs:fuzz_command", "cargo-test-fuzz/src/lib.rs:flags_and_dir", "macro/src/lib.rs:map_method_or_fn", "cargo-test-fuzz/src/lib.rs:consolidate"]}
{"id": "C90", "title": "Arguments that serde is told to skip", "statement": "An argument with `#[serde(skip)]` (or skip_serializing and skip_deserializing, in one attribute or several, among other items and strings) is not in what is recorded, and its type need not be serializable; a replay calls the target with the recorded values of all other arguments, at their places, and the default for those skipped. Calls that differ only in skipped arguments are recorded as the same bytes. Where nothing is skipped the format is the one of C13 and C76. With `skip_serializing` alone on the last field, nothing that is recorded can be replayed; with `skip_serializing_if`, calls for which nothing is omitted are recorded and replayed as if it were not there, but a call for which the last field is omitted cannot be replayed, and one for which an earlier field is omitted may be replayed as a different call. With `flatten`, recording panics.", "quantifier": "every parameter list with attributes, all values, both formats, every attribute text", "why_tests_cant": "All positions and combinations of skipped arguments; values of the wrong argument would be read if the two directions disagreed.", "anchors": ["macro/src/lib.rs:map_arg", "macro/src/lib.rs:map_method_or_fn", "internal/src/serde_format.rs"]}
{"id": "C91", "title": "What conversions require", "statement": "For a target without type parameters, the code generated with `convert = \"X, Y\"` compiles exactly if Y has Clone, Serialize, Deserialize and Into<X>, and values can be recorded: X is Clone and Y has From<X>, or Y has its own FromRef<X>. Nothing else is asked of X: an argument that is converted does not change whether the rest compiles. With type parameters, values can be converted, cloned and written whatever the target is called with, and with the user's arguments they can be read and converted back.", "quantifier": "every target, every list of arguments and conversions, every set of impls, all types put in place of parameters", "why_tests_cant": "Whether code compiles depends on all impls in scope; a sample of types does not show which requirements are necessary.", "anchors": ["test-fuzz/src/convert.rs", "macro/src/lib.rs:map_typed_arg", "macro/src/lib.rs:args_from_autos"]}
{"id": "C92", "title": "Lifetimes in the types of arguments and results", "statement": "In the signature of a target lifetimes may be left out; in the generated struct and associated type they may not. References around the type of an argument (including &str and slices) may be without lifetimes, and converted arguments need explicit lifetimes only in the type they are converted to; every other lifetime in arguments and results has to be written, also one that elision would provide for a result, and methods of an impl such as `impl Foo<'_>` with a receiver cannot be targets. Every lifetime used in a field is written in the signature, the head of the impl or a conversion, or is a parameter.", "quantifier": "every signature, impl, list of conversions, and every choice of types with lifetimes to be added", "why_tests_cant": "Types nest without bound; compile tests show single signatures.", "anchors": ["macro/src/lib.rs:map_typed_arg", "macro/src/lib.rs:map_method_or_fn", "macro/src/type_utils.rs:expand_self"]}
{"id": "C93", "title": "Every input that decodes reaches the target", "statement": "Whatever bytes a harness is given, if they decode to a value of the generated struct, the target is called exactly once, with arguments received from the fields: a conversion of the field, the contents of its string or vector, references to it, or the field itself; no decodable input is skipped. In particular each automatically generated value reaches the target: after a successful generating test, for every value of every argument there is a stored input whose replay calls the target with what is received from that value.", "quantifier": "every parameter list, conversion, attribute, input, and list of generated values", "why_tests_cant": "Fuzzers make inputs that no test recorded; unit tests replay a few recorded ones.", "anchors": ["macro/src/lib.rs:map_typed_arg", "macro/src/lib.rs:map_arg", "macro/src/lib.rs:args_from_autos", "macro/src/lib.rs:map_method_or_fn"]}
{"id": "C94", "title": "Results that borrow from arguments", "statement": "The harness passes references into a local variable for parameters that are references, unless they are converted. Its call can be borrow-checked if and only if no lifetime on such a reference is `'static`, or occurs in the type of the result, or has to outlive one that does. So a target cannot return a borrow from a parameter passed by reference, even if the lifetime is written out, and parameters of type `&'static T` need a conversion; results with lifetimes of the impl are fine.", "quantifier": "every impl, function, set of outlives-bounds, and attribute", "why_tests_cant": "A compile-time property of generated code, for all signatures.", "anchors": ["macro/src/lib.rs:map_method_or_fn", "macro/src/lib.rs:map_typed_arg", "macro/src/lib.rs:map_arg"]}
{"id": "C95", "title": "Inputs that were not recorded completely", "statement": "No proper beginning of the bytes recorded for a call can be read, as that call or as another, in either format. So after recordings that are interrupted anywhere, and while many processes record and others read, each file of a corpus is as it was before, or runs as a call that was recorded, or does not run at all, as long as the system does not split writes. If it splits them, a file with zeros in front can remain that runs as a call that nobody made.", "quantifier": "every parameter list, value, format, point of interruption and interleaving", "why_tests_cant": "Crashes and races at every point cannot be enumerated by tests.", "anchors": ["runtime/src/lib.rs:write_data", "runtime/src/lib.rs:read_args", "internal/src/serde_format.rs:serialize", "internal/src/serde_format.rs:deserialize"]}
{"id": "C96", "title": "Instantiations of a generic target share a corpus", "statement": "The types with which a generic target is instantiated make no difference to the directories of its recordings. After any user code has run with an empty corpus, each file of the corpus was recorded for a call of some instantiation. If it is the one of the harness, the file runs as this call. Otherwise it runs as what the harness's types make of the bytes, or not at all: for example, every call with a string of fewer than 128 bytes is run by a harness for u8 as a call with the length of the string, in both formats.", "quantifier": "every target, instantiation, user program and format; the confusion for all short strings", "why_tests_cant": "Tests check one instantiation at a time; that files of others are taken for valid inputs shows only in their combination.", "anchors": ["internal/src/dirs.rs:path_from_args_type", "runtime/src/lib.rs:write_args", "runtime/src/lib.rs:read_args"]}
{"id": "C97", "title": "Recordings and later versions of a target", "statement": "Corpora stay when a program is changed. What is recorded for a call begins with what the same target with fewer parameters would record for the same arguments, in both formats, and names of parameters do not matter. So after parameters at the end have been removed and others renamed, each recording is run as a call with the arguments that are left; after parameters have been added at the end, no recording is run, unless the new arguments take no space.", "quantifier": "every parameter list, types, values, format and policy of the reader", "why_tests_cant": "Tests run with one version of the target at a time.", "anchors": ["internal/src/serde_format.rs:serialize", "internal/src/serde_format.rs:deserialize", "macro/src/lib.rs:map_args", "macro/src/lib.rs:map_method_or_fn"]}
{"id": "C98", "title": "The command succeeds only if what it depends on did", "statement": "Exit status 0 means: the build succeeded and every executable could be listed; a coverage run deleted the data of earlier runs before the first harness, and wrote the report after the last one (with a warning if a report is overwritten), both with success; the fuzzer of a single target ended with success and was the last thing run, with the options, time bound and environment asked for; with several targets, or --exit-code, the fuzzing loop ended with success, on no more cpus than there are, and --max-total-time was not silently dropped.", "quantifier": "every combination of options, behaviour of the external programs and state of the file system", "why_tests_cant": "Needs failures of each external program in each mode.", "anchors": ["cargo-test-fuzz/src/lib.rs:run_without_exit_code", "cargo-test-fuzz/src/lib.rs:fuzz", "cargo-test-fuzz/src/lib.rs:build", "cargo-test-fuzz/src/lib.rs:fuzz_command"]}
{"id": "C99", "title": "Conditionally compiled methods and parameters", "statement": "With `#[test_fuzz_impl]`, each item of the impl is compiled just if it would be without the macro, whatever `cfg` attributes it has and whichever of them hold. But a module is generated for each method with `#[test_fuzz]`, and does not depend on the other attributes of the method: if a method is not compiled, there is a harness that calls a method that does not exist, so the tests do not compile. A parameter with a `cfg` attribute that does not hold is not removed from a target: the attribute is moved to the field, so that neither callers nor the generated structs agree with the function.", "quantifier": "every impl, list of attributes, and set of `cfg` predicates that hold", "why_tests_cant": "Needs builds under all combinations of features.", "anchors": ["macro/src/lib.rs:map_impl_item_fn", "macro/src/lib.rs:map_method_or_fn"]}
{"id": "C100", "title": "Qualified functions and inner attributes", "statement": "Which functions can be targets, as far as qualifiers and places of attributes are concerned: in builds for tests, those that are not `const` and, if there is a harness, neither `unsafe` nor `async`. Builds for other things than tests are not affected, unless the target says `enable_in_production`; then the conditions are the same. A function with an inner attribute (`#![..]` in its body) can never be a target, since it is written before the function. Without qualifiers and inner attributes there is no obstacle in any build.", "quantifier": "every target, set of options, and combination of qualifiers; both kinds of builds; persistent mode or not", "why_tests_cant": "A compile error is no test outcome, and there are too many combinations.", "anchors": ["macro/src/lib.rs:map_method_or_fn"]}
{"id": "C101", "title": "A target without corpus is fuzzed from its generated inputs", "statement": "When `cargo test-fuzz` is to fuzz targets some of which have no corpus, it begins exactly if inputs can be generated for each of these: it is known how to instantiate the target, generation is not switched off, every parameter has a value, each combination can be serialised, and `TEST_FUZZ` is not set in the user's environment. Then the corpus of such a target, which the fuzzer reads, has exactly one file for each generated input, and corpora that were there are untouched. If `TEST_FUZZ` is set, nothing is generated and the target is said not to be tested. If only a later value cannot be serialised, the command fails once, but leaves a corpus; it goes on with that when run again.", "quantifier": "every number of targets, values, and starting file system; all macro options", "why_tests_cant": "Two programs take part, one of them generated by the macro for each target; the result depends on the environment and on what is on the disk.", "anchors": ["cargo-test-fuzz/src/lib.rs:auto_generate_corpora", "cargo-test-fuzz/src/lib.rs:auto_generate_corpus", "macro/src/lib.rs:map_method_or_fn", "internal/src/dirs.rs:corpus_directory_from_target"]}
{"id": "C102", "title": "What --list prints", "statement": "`cargo test-fuzz --list` prints one line for each selected target, twelve spaces, its name in quotes and a comma, and no such line for anything else: with success, a name has its line exactly if an executable that was built lists the test of the target's harness and the name matches the pattern. Whatever characters names and paths have, they are escaped such that each stays on its line, and equal texts mean equal executables, versions and targets in the same order. Names of printable characters without quotes and backslashes appear as they are.", "quantifier": "every list of executables and targets, every name and path, every option combination with --list, every notion of printable characters", "why_tests_cant": "Names, paths and lists are unbounded; scripts read the output line by line.", "anchors": ["cargo-test-fuzz/src/lib.rs:run_without_exit_code", "cargo-test-fuzz/src/lib.rs:323-326", "cargo-test-fuzz/src/lib.rs:244-263"]}
{"id": "C103", "title": "Coverage, display and replay together", "statement": "If several of `--coverage`, `--display` and `--replay` are given, each with an object, only the object of the first of them (in this order) is looked at: invocations that differ only in the other objects do exactly the same, step by step, as long as they agree in whether the build leaves out instrumentation. So `--display corpus --replay crashes` replays the corpus, and `--display generic-args --replay crashes` replays nothing.", "quantifier": "every combination of options and objects, every system and file system", "why_tests_cant": "All combinations of ten objects each with all other options, on all file systems.", "anchors": ["cargo-test-fuzz/src/lib.rs:run_without_exit_code", "cargo-test-fuzz/src/lib.rs:include_fuzzing_instrumentation", "cargo-test-fuzz/src/lib.rs:for_each_entry"]}
{"id": "C104", "title": "When the command panics", "statement": "The command panics (status 101) only if the version of cargo-afl cannot be determined, `cargo metadata` fails, coverage is asked for and `cargo llvm-cov show-env` fails or prints a line that is not an assignment, the storage options are used without --reset-all for a selection that is not exactly one target, one of several targets replayed has a name that is not ASCII, the timeout does not fit in milliseconds, or the fuzzing loop panics, which without the terminal interface it does not. The first three make it panic whatever is asked for, before anything is built. So no state of the files, no failing command and nothing harnesses do leads to a panic.", "quantifier": "every set of options, every system (files, commands, harnesses, listing, results of the loop), every state", "why_tests_cant": "All options, systems and failures; a test sees one panic, not that there are no others.", "anchors": ["cargo-test-fuzz/src/lib.rs:run_without_exit_code", "cargo-test-fuzz/src/lib.rs:for_each_entry", "cargo-test-fuzz/src/lib.rs:fuzz", "cargo-test-fuzz/src/lib.rs:consolidate", "cargo-test-fuzz/src/lib.rs:reset", "internal/src/dirs.rs:target_directory"]}
{"id": "C105", "title": "What the macros print", "statement": "With TEST_FUZZ_LOG set to 1 every crate, and with it set to the name of a crate that crate and no other, has the expansions of all its uses of the macros printed, each instrumented target and its module once, in order. Printing does not change what the uses expand to or the warnings. The only uses that are rejected because of it are those in a crate without a name, for a value other than 1. There is one warning for each impl in which nothing has the attribute.", "quantifier": "all crates, sequences of uses, values of the variable and names", "why_tests_cant": "A test looks for one module in the output of one build; that all others are printed, that nothing is printed for other crates, and that the expansion is unaffected, are claims about all values and uses.", "anchors": ["macro/src/lib.rs:43-44", "macro/src/lib.rs:80-99", "macro/src/lib.rs:223-229", "macro/src/lib.rs:1191-1201", "README.md:490-495"]}
{"id": "C106", "title": "What the terminal shows", "statement": "With the interface, on a terminal with more rows than fuzzers, a refresh leaves on every row but the bottom one exactly its line of the page – a heading for each fuzzer and its last lines, cut to the width, colours kept, shares of rows differing by at most one – whatever was shown before; nothing scrolls, and the cursor is left on the bottom row, which is as it was. On a smaller terminal only the cursor moves. If every line is shorter than the width and leaves the colours as it found them, so are all headings drawn. (But the last column is always empty, even where the line reaches it, and a coloured line that fills the width colours what follows.)", "quantifier": "every size of the terminal, former contents and pen, number of fuzzers, printable names, lines of printable characters and colour sequences, meaning of the colour sequences", "why_tests_cant": "Depends on the size and the former contents of a terminal and on the output of the fuzzers; the tests have no terminal.", "anchors": ["cargo-test-fuzz/src/lib.rs:refresh", "cargo-test-fuzz/src/lib.rs:cursor_to_home_position", "cargo-test-fuzz/src/lib.rs:clear_to_end_of_line", "cargo-test-fuzz/src/lib.rs:divider_with_width", "cargo-test-fuzz/src/lib.rs:prefix_with_width"]}
{"id": "C107", "title": "What the fuzzing loop starts, and what it does to files", "statement": "Each fuzzer that the loop starts is for one of the selected targets, is told to write to that target's output directory, and reads the target's corpus exactly if it is the first fuzzer for this target and --resume is not given; otherwise it resumes. When a fuzzer is started, its output directory exists (unless a file is in the way or the disk fails) and so does its corpus, provided fuzzers and generation runs remove nothing. Apart from what the fuzzers do, the loop changes nothing on the disk but to make missing directories on the way to output directories, also when disk operations fail; and a directory that cannot be made does not stop the loop.", "quantifier": "for all targets, options, numbers of CPUs, behaviours of fuzzers and of the disk, and after any number of iterations", "why_tests_cant": "needs fuzzers that end, fail and write files at any time, over unboundedly many iterations; the tests fuzz one target for a moment", "anchors": ["cargo-test-fuzz/src/lib.rs:1270-1337", "cargo-test-fuzz/src/lib.rs:1416-1481"]}
{"id": "C108", "title": "Fuzzing several targets, from the command line to the fuzzers", "statement": "If fuzzing several targets, or one with --exit-code, succeeds, then exactly one fuzzer was started for each selected target, in the order of the targets. Each was told to run its target, to read the target's corpus (to resume, with --resume) and to write to the target's output directory. The corpora existed when the loop began and when the fuzzers were started, and the output directories existed when the fuzzers were started unless a file was in the way.", "quantifier": "for all command lines, packages, targets, files, and behaviours of the fuzzers", "why_tests_cant": "needs whole commands: a build, the listing of targets, generation of missing corpora, and a fuzzing loop with several fuzzers that end at any time", "anchors": ["cargo-test-fuzz/src/lib.rs:1228-1413", "cargo-test-fuzz/src/lib.rs:1416-1481", "cargo-test-fuzz/src/lib.rs:1483-1540"]}
{"id": "C109", "title": "What the fuzzing loop warns about", "statement": "At any time, the loop has written to standard error exactly one warning for each target that has failed (its fuzzer exited with a failure, or without saying that it stopped by itself), in the order in which this was noticed, and nothing else. A warning names the target and shows the command of the fuzzer that failed, which is the last one started for the target. When the loop gives up because all targets failed, each has been warned about once. However the loop ends, its last iteration writes only such warnings, about targets that had not failed before.", "quantifier": "for all targets, numbers of CPUs, behaviours of fuzzers and of the terminal, and after any number of iterations", "why_tests_cant": "needs several fuzzers that fail at any time, with time slices, and in batches that also contain the event that ends the loop; no test looks at the warnings of more than one target", "anchors": ["cargo-test-fuzz/src/lib.rs:1306-1332", "cargo-test-fuzz/src/lib.rs:1347-1411"]}
{"id": "C110", "title": "The command succeeds when nothing goes wrong", "statement": "The command finds out which targets to work on exactly if the objects given to --coverage and --replay are valid, the target directories are known, for coverage `cargo llvm-cov show-env` prints assignments, the build succeeds and its executables can be listed, and cargo-afl and the dependencies of the selected executables have versions that go together. --list and --no-run succeed exactly then, even without targets. Fuzzing one target succeeds if in addition the target has a corpus or its generation test makes one, the timeout fits in milliseconds and the fuzzer ends well; fuzzing several ends as the fuzzing loop does, given targets with corpora, a cpu, and no --max-total-time with too few cpus. Coverage, display and replay succeed if each selected target has a directory of the object, whatever the harnesses say and even if they hang. Consolidation and reset succeed if the directories are as fuzzers leave them and the selection is one target or all.", "quantifier": "for all command lines, packages, targets, files, and behaviours of commands, fuzzers and harnesses", "why_tests_cant": "a test shows that one command succeeds in one situation; that nothing else than the conditions listed can make a command fail needs all of them", "anchors": ["cargo-test-fuzz/src/lib.rs:264-422", "cargo-test-fuzz/src/lib.rs:861-1029", "cargo-test-fuzz/src/lib.rs:1204-1252", "cargo-test-fuzz/src/lib.rs:1483-1540"]}
