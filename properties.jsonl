{"id": "C01", "title": "Source files are restored on every graceful exit", "statement": "However a run of necessist ends other than by the process being killed (success, an error from any backend call or file operation, a denied warning, a database error, Ctrl-C, or a panic that unwinds), every source file has exactly the contents it had when the run started.", "quantifier": "all candidate maps, past removals, option settings, and all behaviours of the backend, of file writes (including partial writes) and of Ctrl-C", "why_tests_cant": "The exit can happen between any two effects, and each backend call can fail independently; tests exercise only a handful of exit points.", "anchors": ["core/src/core.rs run, instrument_statements", "core/src/span.rs Span::remove", "rewriter::Backup (external)"]}
{"id": "C02", "title": "A test is only ever run against exactly one removal", "statement": "Every time a test is built or executed for a candidate, the file containing the candidate is either the original file with exactly that candidate's text deleted, or the original file with the instrumentation inserted (the candidate being then a statement, and the run being told that candidate's id through NECESSIST_REMOVAL), and all other source files have their original contents.", "quantifier": "all candidate maps, all backend behaviours and failures, all points of the run at which a test is executed", "why_tests_cant": "A stale removal or instrumentation surviving into a later iteration depends on the order of candidates, failures and drops; enumerating these histories is not possible with tests.", "anchors": ["core/src/core.rs run", "core/src/span.rs Span::remove"]}
{"id": "C03", "title": "At most one source file is modified at any time", "statement": "At every observable point of a run (every backend call and every database write) at most one source file differs from its original contents, namely the one currently being processed.", "quantifier": "all runs and all observable points of them", "why_tests_cant": "It must hold at every intermediate point of every history.", "anchors": ["core/src/core.rs run, instrument_statements"]}
{"id": "C04", "title": "Removal deletes exactly the candidate's text", "statement": "Removing a span writes prefix ++ suffix where the original contents are prefix ++ text ++ suffix, text is the text reported for the candidate, prefix ends at the span's start line/column and suffix begins at its end line/column (columns counted in characters).", "quantifier": "all file contents (any Unicode text, any line structure) and all spans that lie in the file", "why_tests_cant": "Contents and positions range over an unbounded space.", "anchors": ["core/src/span.rs Span::remove, Span::source_text", "rewriter::Rewriter (external)"]}
{"id": "C05", "title": "Instrumentation only inserts, and wraps each statement exactly", "statement": "The instrumented file is the original file with only insertions: deleting the inserted strings gives back the original; and, for pairwise disjoint statements, each statement's unchanged text is immediately preceded by its own prefix and immediately followed by its own suffix, so prefixes and suffixes are balanced.", "quantifier": "all file contents, all sets of disjoint statement spans and all prefix/suffix strings", "why_tests_cant": "Unbounded number and layout of statements, including adjacent and empty ones.", "anchors": ["core/src/core.rs instrument_statements", "core/src/source_file.rs SourceFile::insert"]}
{"id": "C06", "title": "Instrumentation is equivalent to removal", "statement": "Running the instrumented file with NECESSIST_REMOVAL set to a statement's id behaves exactly like running the original file with that statement deleted, and with the variable set to a string that is no statement's id like the original file, provided the statements' ids are pairwise distinct.", "quantifier": "all programs (sequences and nestings of statements), all program states, all ids", "why_tests_cant": "Equivalence is over all programs and inputs.", "anchors": ["core/src/core.rs instrument_statements", "backends/src/rust/mod.rs statement_prefix_and_suffix", "backends/src/go/mod.rs statement_prefix_and_suffix"]}
{"id": "C07", "title": "A candidate is reported 'passed' only if every test passed", "statement": "The outcome recorded for a candidate is passed if and only if every test associated with it built, ran to completion and succeeded; otherwise it is the outcome of the first test (in order) that did not pass, and no later test is executed.", "quantifier": "all lists of tests and all behaviours of each test", "why_tests_cant": "Ranges over unbounded test lists and all combinations of results.", "anchors": ["core/src/core.rs run (try_fold)"]}
{"id": "C08", "title": "A single execution is classified correctly", "statement": "A test execution yields timed-out exactly when it outlives the timeout (and then its process tree is killed and it is reaped), nothing when the backend determines that the test did not actually run, and otherwise passed or failed according to the exit status; --timeout absent means 60 seconds, 0 means no timeout, n means n seconds.", "quantifier": "all timeout settings, process durations, exit statuses and postprocessing results", "why_tests_cant": "Depends on the interaction of three independent inputs over unbounded durations.", "anchors": ["core/src/core.rs perform_exec, timeout"]}
{"id": "C09", "title": "An undetermined candidate is never recorded", "statement": "If the backend cannot tell that a test ran (postprocessing returns false), no database row and no console line is produced for that candidate, and the run carries on with the next candidate.", "quantifier": "all runs", "why_tests_cant": "It must hold at every candidate of every run, in combination with every other behaviour.", "anchors": ["core/src/core.rs run, perform_exec, emit"]}
{"id": "C10", "title": "A complete run accounts for every candidate exactly once", "statement": "When a run that starts with an empty database finishes successfully, the database contains exactly one row for each candidate whose outcome was determined, none for others, each with the candidate's location, its text and its outcome; candidates in a file whose dry run failed have outcome skipped.", "quantifier": "all candidate maps, backend behaviours", "why_tests_cant": "Unbounded number of files/candidates and arbitrary interleaving of failures.", "anchors": ["core/src/core.rs run, emit, skip_present_spans", "core/src/sqlite.rs insert"]}
{"id": "C11", "title": "Resuming never loses a candidate", "statement": "With --resume, a candidate is passed over without being run only if the database already contains a row for exactly that span.", "quantifier": "all databases (in any state, including ones made for different sources) and all candidate maps", "why_tests_cant": "Past results and current candidates can diverge arbitrarily.", "anchors": ["core/src/core.rs skip_past_removals, run"]}
{"id": "C12", "title": "Resuming never repeats recorded work", "statement": "With --resume, no candidate that already has a row in the database is executed again, so an interrupted run can always be resumed to completion.", "quantifier": "all databases left by an interrupted run and all candidate maps", "why_tests_cant": "Depends on the iteration order of candidates vs. the sort order of past rows for every layout of statements and method calls.", "anchors": ["core/src/core.rs skip_past_removals, run, sqlite_and_past_removals_init_lazy", "core/src/framework/mod.rs SpanTestMaps::iter"]}
{"id": "C13", "title": "Interrupt/resume reaches the same database as one uninterrupted run", "statement": "For deterministic tests, any sequence of interrupted runs followed by a completed --resume run leaves the same rows in the database as a single uninterrupted run.", "quantifier": "all candidate maps, all interruption points, any number of resumes", "why_tests_cant": "Quantifies over all histories of interruptions.", "anchors": ["core/src/core.rs run, skip_past_removals, emit"]}
{"id": "C14", "title": "Existing results are never discarded without being asked", "statement": "If necessist.db exists, a run without --dump, --reset or --resume fails and leaves it unchanged; --dump never changes it; --resume keeps all rows; only --reset empties it. If it does not exist, --dump fails, and --reset/--resume warn and create it.", "quantifier": "all combinations of the flags, database existence and contents", "why_tests_cant": "All databases and all flag combinations together with warning settings.", "anchors": ["core/src/sqlite.rs init", "core/src/core.rs sqlite_and_past_removals_init_lazy, dump"]}
{"id": "C15", "title": "A failed dry run leaves the file untouched and skipped", "statement": "If a source file's dry run fails, none of its candidates is executed and the file is never modified; each remaining candidate is recorded as skipped with its text and nothing is printed for it; the run goes on to the next file.", "quantifier": "all runs", "why_tests_cant": "Every combination of failing files and databases.", "anchors": ["core/src/core.rs run, skip_present_spans"]}
{"id": "C16", "title": "Ctrl-C stops before recording", "statement": "Once Ctrl-C has been observed after a dry run or after a candidate's tests, the run returns an error, no row is added for that candidate, and no further test is executed.", "quantifier": "all runs and all points at which Ctrl-C can arrive", "why_tests_cant": "The signal can arrive at any instant.", "anchors": ["core/src/core.rs run"]}
{"id": "C17", "title": "Console output is exactly the passed removals unless --verbose; none with --quiet", "statement": "A recorded removal is printed iff not quiet and (verbose or its outcome is passed); --dump prints the stored removals in span order filtered by the same rule, and adds the note exactly when something was suppressed for lack of --verbose.", "quantifier": "all options, databases and outcomes", "why_tests_cant": "All combinations.", "anchors": ["core/src/core.rs emit_to_console, dump, emit"]}
{"id": "C18", "title": "Progress advances once per candidate", "statement": "In a successful run the progress bar is advanced by exactly the number of candidates, each candidate counting once whether it was run, skipped as past, or skipped because of a failed dry run.", "quantifier": "all runs", "why_tests_cant": "Sum over unbounded histories of skips and executions.", "anchors": ["core/src/core.rs run, update_progress, skip_past_removals, skip_present_spans, prepare"]}
{"id": "C19", "title": "A span's textual form can be read back", "statement": "Parsing the displayed form of a span gives back the same span (for the same project root).", "quantifier": "all relative paths and line/column positions", "why_tests_cant": "Unbounded strings and numbers.", "anchors": ["core/src/span.rs Span::parse, to_string_with_path, SPAN_RE"]}
{"id": "C20", "title": "Distinct candidates have distinct database keys", "statement": "Two different spans of one project never have the same displayed form, so recording one never collides with another.", "quantifier": "all pairs of spans", "why_tests_cant": "Unbounded.", "anchors": ["core/src/span.rs Display for Span", "core/src/create_table_removal.sql"]}
{"id": "C21", "title": "Spans are totally ordered by file, then start, then end", "statement": "Span comparison is a total order consistent with equality, and orders first by relative path, then by start, then by end position.", "quantifier": "all spans", "why_tests_cant": "Transitivity/antisymmetry over all triples.", "anchors": ["core/src/span.rs Span (derive Ord)", "core/src/source_file.rs Ord for SourceFile"]}
{"id": "C22", "title": "Outcomes survive the database", "statement": "Every outcome's stored string is accepted by the database's CHECK constraint, reads back as the same outcome, and any string that is not one of the five is rejected.", "quantifier": "all outcomes and all strings", "why_tests_cant": "All strings.", "anchors": ["core/src/outcome.rs", "core/src/create_table_removal.sql", "core/src/sqlite.rs into_internal_removal"]}
{"id": "C23", "title": "A configuration pattern matches exactly the names its wildcards describe", "statement": "A pattern without invalid characters matches a name iff the name can be obtained from the pattern by replacing each '*' with some (possibly empty) text without line breaks; all other characters, including '.', match only themselves, and the whole name must match.", "quantifier": "all patterns and all names", "why_tests_cant": "Unbounded strings.", "anchors": ["core/src/config.rs compile_pattern, escape, Compiled"]}
{"id": "C24", "title": "An ignored-method pattern matches a path or any dot-suffix of it", "statement": "An ignored_methods pattern matches a method path iff the pattern matches the path or what remains after dropping one or more leading non-empty dot-terminated components.", "quantifier": "all patterns and all paths", "why_tests_cant": "Unbounded strings.", "anchors": ["core/src/config.rs compile_pattern"]}
{"id": "C25", "title": "Invalid patterns are rejected", "statement": "A configuration is accepted iff every function, macro, method and walkable-function pattern contains only alphanumerics, '_', '.' and '*'; otherwise necessist fails naming an offending character, before anything is run.", "quantifier": "all configurations", "why_tests_cant": "Unbounded.", "anchors": ["core/src/config.rs escape, compile_patterns, compile"]}
{"id": "C26", "title": "Effective configuration is the built-ins plus the user's", "statement": "The effective configuration ignores exactly what the framework's built-in list or the user's list ignores; scalar settings are the user's or else the default; merging conflicting scalars is refused.", "quantifier": "all pairs of configurations", "why_tests_cant": "Unbounded lists.", "anchors": ["core/src/config.rs merge, compile", "backends/src/parsing.rs compile_config"]}
{"id": "C27", "title": "A missing configuration is the default and unknown keys are refused", "statement": "Without necessist.toml the default configuration is used; with it, any unrecognised key makes necessist fail; --default-config never overwrites an existing file and what it writes reads back as the default.", "quantifier": "all configuration files", "why_tests_cant": "All key sets.", "anchors": ["core/src/config.rs Toml::read", "core/src/core.rs default_config"]}
{"id": "C28", "title": "A denied warning always aborts", "statement": "A warning that is denied (itself or through 'all') always turns into an error, regardless of --allow, --quiet and of whether it was emitted before.", "quantifier": "all option settings, warnings and histories of earlier warnings", "why_tests_cant": "All histories.", "anchors": ["core/src/warn.rs warn_internal"]}
{"id": "C29", "title": "Allowed or quiet warnings print nothing; others print", "statement": "A warning that is not denied prints exactly one message unless it is allowed, quiet is set, or it is a once-only warning that was already printed.", "quantifier": "all options and histories", "why_tests_cant": "All histories.", "anchors": ["core/src/warn.rs warn_internal"]}
{"id": "C30", "title": "Hints are given at most once per kind of warning", "statement": "Over any history, for each kind of warning: a once-only warning is printed at most once, the 'silence with --allow' hint is printed at most once and with the first message printed, and the bug-report hint is attached at most once and only to the three kinds that may be bugs.", "quantifier": "all histories of warnings", "why_tests_cant": "All histories.", "anchors": ["core/src/warn.rs warn_internal, may_be_bug"]}
{"id": "C31", "title": "Incompatible options are refused symmetrically", "statement": "Options are accepted iff no two members of any of the documented incompatible groups are set together and --write is accompanied by --check-skill or --find-skill.", "quantifier": "all option combinations", "why_tests_cant": "Exponential number of combinations.", "anchors": ["core/src/core.rs incompatible!, process_options"]}
{"id": "C32", "title": "skip directives are recognised exactly", "statement": "A line is a skip directive iff, ignoring leading blanks, it is '//' then 'necessist:' then 'skip' (blanks allowed between them) not followed by '-', '_' or an alphanumeric; likewise skip-file; no line is both; other '// necessist:' lines are reported as unrecognised.", "quantifier": "all lines of text", "why_tests_cant": "Unbounded strings.", "anchors": ["backends/src/directives.rs"]}
{"id": "C33", "title": "A skip directive suppresses exactly the candidates on the next line", "statement": "A candidate is suppressed iff the first line of its code (leading comment and blank lines of the spanned text not counted) is the line after a skip directive.", "quantifier": "all files and spans", "why_tests_cant": "Unbounded.", "anchors": ["backends/src/directives.rs Directives::collect, skip, span_code_start_line"]}
{"id": "C34", "title": "skip-file works exactly in the file header", "statement": "A file is skipped iff some skip-file directive is preceded only by line comments, blank lines and '<?php' lines; a later skip-file directive only produces a warning.", "quantifier": "all files", "why_tests_cant": "Unbounded.", "anchors": ["backends/src/directives.rs Directives::collect, is_file_header_line", "backends/src/parsing.rs ParseAdapter::parse"]}
{"id": "C35", "title": "Only removable things inside tests become candidates", "statement": "Every statement candidate is a removable statement of a non-ignored test (or of a walked function), is not the last statement of a test, is not a control statement or declaration unless it is a call, is not an ignored call, and is not suppressed by a directive.", "quantifier": "all syntax trees and configurations", "why_tests_cant": "All programs.", "anchors": ["backends/src/generic_visitor.rs"]}
{"id": "C36", "title": "No removable statement is overlooked", "statement": "Every leaf non-call statement of a visited test that is removable, not last, not control, not a declaration and not suppressed is a candidate; likewise every non-ignored call statement.", "quantifier": "all syntax trees and configurations", "why_tests_cant": "All programs.", "anchors": ["backends/src/generic_visitor.rs visit_statement, visit_statement_post, visit_call"]}
{"id": "C37", "title": "Ignored calls and methods are never candidates", "statement": "No candidate is a call, macro call or method call whose name matches an ignored pattern, and the arguments of an ignored call contain candidates only if visit_ignored_arguments is set.", "quantifier": "all syntax trees and configurations", "why_tests_cant": "All programs.", "anchors": ["backends/src/generic_visitor.rs visit_call, call_info_inner, visit_maybe_macro_call!"]}
{"id": "C38", "title": "Candidates are attributed to the tests that contain or reach them", "statement": "A candidate found inside a test is associated with that test; one found inside a walked function is associated exactly with tests that (directly, or through walked functions) call it; test names associated with a candidate are always registered, non-ignored tests.", "quantifier": "all syntax trees", "why_tests_cant": "All programs.", "anchors": ["backends/src/generic_visitor.rs next_local_function, visit_call, register_span"]}
{"id": "C39", "title": "Each walkable function is walked at most once", "statement": "While processing a file each walkable function is walked at most once, and the processing terminates.", "quantifier": "all files, including recursive and mutually recursive functions", "why_tests_cant": "All call graphs.", "anchors": ["backends/src/generic_visitor.rs next_local_function, visit_call"]}
{"id": "C40", "title": "Statement candidates do not overlap", "statement": "Of the non-call statements only leaves are candidates: no non-call statement candidate contains another statement.", "quantifier": "all syntax trees", "why_tests_cant": "All nestings.", "anchors": ["backends/src/generic_visitor.rs visit_statement_post"]}
{"id": "C41", "title": "Merging parse results is a union", "statement": "Parsing several paths yields, for each file and span, the union of the associated test names, independent of the order in which the files are visited; a file visited twice contributes the same candidates as once.", "quantifier": "all lists of paths", "why_tests_cant": "All orders and multiplicities.", "anchors": ["backends/src/parsing.rs ParseAdapter::parse, extend"]}
{"id": "C42", "title": "Auto framework selection is unambiguous", "statement": "With --framework auto, a framework is used iff exactly one is applicable; more than one is an error listing them all, none is the error 'found no applicable frameworks'; with an explicit framework that one is used.", "quantifier": "all applicability results", "why_tests_cant": "All combinations.", "anchors": ["core/src/framework/auto.rs", "core/src/core.rs backend_for_framework"]}
{"id": "C43", "title": "Framework names resolve uniquely", "statement": "A framework name given on the command line resolves to a left (core) variant if one has that name and otherwise to a right (extension) variant; the list of possible values is sorted and each listed value resolves to itself.", "quantifier": "all pairs of framework enumerations", "why_tests_cant": "All.", "anchors": ["core/src/framework/union.rs from_str, value_variants"]}
{"id": "C44", "title": "Only files under the root are processed", "statement": "Every path given on the command line is resolved relative to the root and refused unless it lies under the root, before anything is parsed.", "quantifier": "all paths", "why_tests_cant": "Unbounded.", "anchors": ["core/src/core.rs canonicalize_source_files"]}
{"id": "C45", "title": "One necessist per root at a time", "statement": "Two necessist processes never process the same root simultaneously: while one holds the lock another fails immediately (or waits, in test mode), and the lock is released when the holder exits in any way.", "quantifier": "all interleavings of any number of processes", "why_tests_cant": "All schedules.", "anchors": ["core/src/flock.rs", "core/src/core.rs lock_root"]}
{"id": "C46", "title": "A timed-out test's whole process tree is killed, children first", "statement": "When a test times out every process in its process tree is sent a kill exactly once, no other process is, and a process is killed only after all of its descendants.", "quantifier": "all process trees", "why_tests_cant": "Unbounded trees.", "anchors": ["core/src/core.rs transitive_kill"]}
{"id": "C47", "title": "A test counts as run according to the whole output", "statement": "Whether a test ran is decided over all valid UTF-8 lines of its output: for 'any'-style frameworks iff some line matches, for 'all'-style iff every line matches; invalid lines never change the decision and each is reported.", "quantifier": "all outputs", "why_tests_cant": "Unbounded outputs.", "anchors": ["backends/src/running.rs RunAdapter::exec"]}
{"id": "C48", "title": "it-messages are discovered before use, and warned about at most once", "statement": "A mocha/vitest test is executed individually exactly if its message was reported by an earlier successful dry run of the same source file; each unreported message is warned about, and at most once per file; a test whose message was not reported is never started, its candidate counts as not buildable, and necessist carries on with the next candidate.", "quantifier": "all histories of dry runs and executions", "why_tests_cant": "All histories.", "anchors": ["backends/src/ts/inner/mod.rs dry_run, exec", "backends/src/ts/mocha.rs it_message_extractor"]}
{"id": "C49", "title": "Skill check/find statuses are truthful and exit codes follow", "statement": "After --check-skill/--find-skill the reported status describes the file's state at the end, exit code is failure iff the reported status is nonexistent or old, and find reports failure iff some well-known location is so.", "quantifier": "all file-system states and versions", "why_tests_cant": "All.", "anchors": ["core/src/skill.rs check_impl, find_impl, exit_code"]}
{"id": "C50", "title": "Skill files are never downgraded or created unasked", "statement": "Without --write nothing is written; with it, a file is only created by --check-skill on a nonexistent path or replaced when strictly older; a current, newer, foreign or malformed file is never touched, and a second run changes nothing.", "quantifier": "all file-system states and versions", "why_tests_cant": "All.", "anchors": ["core/src/skill.rs check_impl, maybe_write_skill, maybe_update_skill"]}
{"id": "C51", "title": "Skill header extraction takes exactly the front matter", "statement": "The header is the lines strictly between a first line '---' and the next line '---'; any other file is refused.", "quantifier": "all file contents", "why_tests_cant": "Unbounded.", "anchors": ["core/src/skill.rs skill_header"]}
{"id": "C52", "title": "A bounded tree walk visits each descendant exactly once", "statement": "Walking a syntax node that has children visits each proper descendant exactly once in preorder (leaving out the descendants of statements and calls that are not to be walked), calls enter and leave as a recursive traversal would, never leaves the node's subtree, and ends positioned at the node that follows the subtree within the enclosing walk, or exhausted if there is none. (A node without children must not be walked: such a walk cannot end.)", "quantifier": "all trees in which the statements and calls that are walked have children, all positions in them, and all visitors", "why_tests_cant": "All tree shapes.", "anchors": ["backends/src/tree_sitter_utils.rs BoundedCursor", "backends/src/go/visitor.rs walk_nodes"]}
{"id": "C53", "title": "Byte columns are converted to character columns", "statement": "A byte position reported by a parser is converted to the line/column whose offset in the file is that byte position.", "quantifier": "all Unicode file contents and positions on character boundaries", "why_tests_cant": "Unbounded contents.", "anchors": ["backends/src/tree_sitter_utils.rs ToLineColumn", "backends/src/foundry/mod.rs offset_to_line_column"]}
{"id": "C54", "title": "Trimming a span only drops leading whitespace", "statement": "trim_start advances the start past exactly the leading whitespace of the spanned text: the trimmed span's text is the original's text without its leading whitespace, with the same end.", "quantifier": "all contents and spans", "why_tests_cant": "Unbounded.", "anchors": ["core/src/span.rs Span::trim_start"]}
{"id": "C55", "title": "Foundry cheatcodes stay with the statement they modify", "statement": "In a Foundry file, a statement that immediately follows vm.prank(...) or vm.expect*(...) in its block is never a candidate, and neither is anything inside it; an emit, return, revert, break or continue statement is never removed as a statement; functions marked pure yield no candidates; and a removed statement's span extends over its semicolon, with nothing but whitespace in between.", "quantifier": "all Solidity syntax trees, configurations and positions", "why_tests_cant": "Blocks, cheatcodes and helper functions nest and combine without bound.", "anchors": ["backends/src/foundry/visitor/mod.rs filter_statements, is_prefix_cheatcode, is_test_function, is_pure", "backends/src/foundry/mod.rs LocWithOptionalSemicolon", "README.md Foundry"]}
{"id": "C56", "title": "Go instrumentation refers to the os package correctly", "statement": "If the file imports os under a name, that name is used; otherwise an import is inserted on the line after the package clause, and only if there is something to instrument.", "quantifier": "all Go files", "why_tests_cant": "Unbounded text.", "anchors": ["backends/src/go/mod.rs imports_os, package_line, instrument_source_file"]}
{"id": "C57", "title": "Rust tests are walked under the right name", "statement": "The path computed for a Rust test is its file's module path (the directories below src, src/bin/CRATE or tests/CRATE of the nearest package, and the file's stem unless that is lib, main or mod), then the inline modules enclosing it, then its name; exactly those tests (outside functions) that 'cargo test -- --list' lists under that path are walked; if the file's module path is unknown, none is and each is warned about; visiting panics only if a test contains a test.", "quantifier": "all paths and module nestings", "why_tests_cant": "Unbounded.", "anchors": ["backends/src/rust/storage.rs", "backends/src/rust/visitor.rs", "backends/src/rust/mod.rs Test::new"]}
{"id": "C58", "title": "The nearest package is chosen", "statement": "A Rust source file is attributed to the package whose manifest directory is the longest one containing it.", "quantifier": "all package lists", "why_tests_cant": "Unbounded.", "anchors": ["backends/src/rust/storage.rs cached_source_file_package"]}
{"id": "C59", "title": "Caches are transparent", "statement": "Memoised lookups return what an uncached computation returns for the first request of that key, errors are not cached, and the contents a source file was first read with are used for its whole lifetime.", "quantifier": "all request sequences", "why_tests_cant": "All histories.", "anchors": ["backends/src/rust/try_insert.rs", "core/src/source_file.rs SourceFile::new"]}
{"id": "C60", "title": "Links point at the right lines", "statement": "The URL stored with a removal is https for ssh remotes, has no .git suffix, and names the commit, repository-relative path and line range of the span.", "quantifier": "all remotes and spans", "why_tests_cant": "Unbounded strings.", "anchors": ["core/src/sqlite.rs url_from_span"]}
{"id": "C61", "title": "Candidate dumps are faithful and have no side effects", "statement": "--dump-candidates prints one line for each candidate that a run would consider, in the same order; --dump-candidate-counts prints each file once with its number of candidates, in ascending order of count then path; neither executes a test nor modifies a file.", "quantifier": "all candidate maps", "why_tests_cant": "Unbounded.", "anchors": ["core/src/core.rs dump_candidates, dump_candidate_counts, prepare"]}
{"id": "C62", "title": "Anchor.toml is restored", "statement": "With the Anchor framework, Anchor.toml is patched only while `anchor test` is being executed (the dry run, the check, or one test of one removal), then it runs the source file in question; whenever anything else happens it contains what it contained at the start, and it is restored whether tests succeed, fail, time out, cannot be started, waited for or killed, and whichever way the run ends. The patch changes only the value scripts.test: it is the old script with the last TypeScript file replaced and arguments added. Anchor.toml is accepted exactly if it has such a script naming mocha or vitest.", "quantifier": "all documents and scripts, all candidate lists, all environments (including commands that change Anchor.toml), all ways of ending but not ending at all", "why_tests_cant": "Restoration depends on who owns the backup at each of the many ways a test execution can end; all scripts and documents.", "anchors": ["backends/src/anchor/mod.rs: new, json_extractor, dry_run, build_source_file, exec, check, patch_anchor_toml, edit_test_script, parse_test_value", "core/src/core.rs: perform_exec"]}
{"id": "C63", "title": "Exit codes", "statement": "necessist exits with 0 after a successful run, 1 exactly when a skill check found something to update, and 2 on any error.", "quantifier": "all invocations", "why_tests_cant": "All paths to exit.", "anchors": ["necessist/src/main.rs", "core/src/core.rs necessist", "core/src/skill.rs exit_code"]}
{"id": "C64", "title": "A denied or unparsable file never aborts silently", "statement": "A file that cannot be parsed is reported and skipped without affecting the candidates of other files, unless parsing-failed is denied, in which case necessist fails before running anything.", "quantifier": "all file lists", "why_tests_cant": "All combinations.", "anchors": ["backends/src/parsing.rs ParseAdapter::parse"]}
{"id": "C65", "title": "ignored_path_disambiguation is honoured", "statement": "A call of a path a.b...z that could be a function or a method is ignored exactly if, for None, the whole path matches ignored_functions or the part after the first name matches ignored_methods; for Function, exactly if it matches ignored_functions; for Method, exactly if it matches ignored_methods.", "quantifier": "all configurations, paths, tests and surrounding code", "why_tests_cant": "the fixtures cover a few paths and settings; the three-way rule interacts with nesting and with the separate method rule for every path", "anchors": ["backends/src/generic_visitor.rs: visit_call, call_info_inner", "README.md: Configuration files, Paths"]}
{"id": "C66", "title": "Looking for candidates never panics", "statement": "For every syntax tree that a framework's parser produces, the search for candidates ends without a panic (no assertion of the visitor fails).", "quantifier": "all syntax trees, configurations and sets of walkable functions", "why_tests_cant": "the assertions concern the nesting of tests, statements and calls, of which there are unboundedly many forms", "anchors": ["backends/src/generic_visitor.rs: visit_test, visit_test_post, visit_statement, visit_statement_post, register_span, results"]}
{"id": "C67", "title": "Rust module paths are the compiler's", "statement": "For every module of every crate that cargo discovers by itself, the module path computed from the file's location is the path the compiler gives to the module in that file.", "quantifier": "all package directories, crates and module paths", "why_tests_cant": "Unbounded paths.", "anchors": ["backends/src/rust/storage.rs cached_source_file_fs_module_path, fs_module_path"]}
{"id": "C68", "title": "Rust commands select the file's target", "statement": "Once a file has been visited, the commands to build and run its tests are defined whatever is visited later, and are 'cargo test' with flags naming the nearest package's manifest and the one integration test target whose source is the file, or else the package's programs and library; a test is run with '-- --exact NAME'.", "quantifier": "all packages, files and later visits", "why_tests_cant": "All target lists and histories.", "anchors": ["backends/src/rust/mod.rs cached_source_file_flags, test_command, command_to_run_test"]}
{"id": "C69", "title": "The number of candidates announced is right", "statement": "The number of candidates in the line printed before a run, which is also the total of the progress bar, is the number of candidates the run deals with.", "quantifier": "all projects and options", "why_tests_cant": "Depends on how candidates and tests relate, in any project.", "anchors": ["core/src/core.rs prepare (n_spans), necessist (ProgressBar::new)"]}
{"id": "C70", "title": "Go: which statements and method calls are candidates", "statement": "For a Go test file as the grammar describes it, the visit ends and does not panic; its tests are the functions named Test… other than TestMain that are not ignored; a statement candidate is a statement, not the last one of the test, of a test or of a function the test calls, that is neither suppressed nor an ignored call nor a declaration or control statement; a method-call candidate is a non-ignored call base.p1…pk(…) in such a function; and no plain statement or method call that is not hidden by an ignored call is overlooked.", "quantifier": "all syntax trees of Go files, configurations and directives", "why_tests_cant": "All trees of unbounded depth; the tests compare a few fixed files.", "anchors": ["backends/src/go/visitor.rs visit, visit_tree, visit_current_node, walk_nodes, collect_local_functions", "backends/src/go/mod.rs ParseLow for Go"]}
{"id": "C71", "title": "PHP: which statements and method calls are candidates", "statement": "For a PHP test file as the grammar describes it, the visit ends and does not panic; its tests are the methods named test… that are not ignored; a statement candidate is a statement of a block of a test, not the last one of the test, that is neither suppressed nor an ignored call nor a declaration, control statement or throw; a method-call candidate is a non-ignored call base->p1->…->pk(…) in a test; and no plain statement or method call that is not hidden by an ignored call is overlooked.", "quantifier": "all syntax trees of PHP files, configurations and directives", "why_tests_cant": "All trees of unbounded depth; the tests compare a few fixed files.", "anchors": ["backends/src/php/visitor.rs visit, visit_tree, visit_current_node, walk_nodes", "backends/src/php/mod.rs ParseLow for Php"]}
{"id": "C72", "title": "TypeScript: which statements and method calls are candidates", "statement": "For a JavaScript or TypeScript file in which tests `it(\"message\", function)` are statements of their own and are not nested in one another or in functions that tests call, the visit ends and does not panic; its tests are the messages that are not ignored; a statement candidate is a statement, not the last one of the test, of a test or of a declared function that the test calls, that is neither suppressed nor an ignored call nor a declaration, break, continue, return or throw; a method-call candidate is a non-ignored call base.p1.….pk(…) there; and no plain statement or method call that is not hidden by an ignored call is overlooked.", "quantifier": "all syntax trees of JavaScript and TypeScript modules, configurations and directives", "why_tests_cant": "All trees of unbounded depth; the tests compare a few fixed files.", "anchors": ["backends/src/ts/inner/visitor.rs visit, visit_stmt, visit_expr, collect_local_functions", "backends/src/ts/inner/mod.rs ParseLow for Inner, is_it_call_stmt, is_it_call_expr"]}
{"id": "C73", "title": "The program ends unless something outside does not", "statement": "A run of Necessist that does not end waits for something outside: a call of the framework's or of the operating system's, or a test process that never ends while the user has turned the timeout off (--timeout 0).", "quantifier": "all projects, options, states of the machine and behaviours of the outside world (build tools, test processes, Ctrl-C, file system), including non-deterministic ones", "why_tests_cant": "Non-termination cannot be observed by a test, and every schedule and every behaviour of the outside counts.", "anchors": ["core/src/core.rs run, perform_exec, timeout", "core/src/core.rs necessist"]}
{"id": "C74", "title": "What is removed from Rust tests", "statement": "In a Rust file, the tests are the functions with the attribute #[test] or #[tokio::test] that cargo lists under the name that the file and its modules give them, except the ignored ones. A statement that Necessist removes is a statement of such a test (not its last one) or of a function of the file that the test calls, directly or through others that may be walked; it is not the value of its block, not a declaration, break, continue or return, and not an ignored call or macro. A method call that it removes is the outermost one of a chain of method calls of such a test or function and is not ignored. No plain statement and no method call of a test, nor a plain statement of a function it calls, is overlooked. If cargo knows the file's package and can list its tests, visiting the file ends without an error or a panic; if it does not know the package, or fails to list the tests of a file that has some, the file is not taken for one without tests.", "quantifier": "all Rust syntax trees whose functions contain no test functions and have pairwise different bodies, all configurations, all answers of cargo, all suppressed spans", "why_tests_cant": "Every shape of syntax tree counts (nesting, chains of calls, modules, functions that call each other), and completeness is about what is not reported.", "anchors": ["backends/src/rust/visitor.rs visit, Visitor, BlockCollector", "backends/src/rust/mod.rs ParseLow for Rust", "backends/src/rust/storage.rs", "backends/build/syn.rs expression_with_block", "backends/src/generic_visitor.rs GenericVisitor"]}
{"id": "C75", "title": "The commands that are executed", "statement": "Whatever happens outside, a run executes exactly the commands that the framework's way of working calls for, in order: a dry run of a file is the installation of dependencies if they are missing, followed by the tests of the file; an instrumented file is built; for a removal the test is built, and only if this succeeds the command for one of the tests of the removal's candidate is started, with the removal's identifier in the environment. The user's arguments are passed along. A removal is nonbuildable only if its build fails (or the dry run did not show the test), and a test counts as passed or failed only if its own command ended in time and its output showed that it ran. Go and Rust are told to run exactly the test, PHPUnit the methods of that name, Foundry the tests whose names contain the name; Hardhat, Vitest and Anchor run all tests of the file, Anchor by having the file's path in the test script in Anchor.toml while the command is executed.", "quantifier": "all projects, arguments, files and candidates, all behaviours of commands, processes and the file system, all configurations, interrupted and failing runs included", "why_tests_cant": "The order of commands must be right for every combination of successes, failures, timeouts and interruptions.", "anchors": ["backends/src/running.rs RunAdapter, RunLow", "backends/src/go/mod.rs RunLow for Go", "backends/src/php/mod.rs RunLow for Php", "backends/src/foundry/mod.rs RunLow for Foundry", "backends/src/rust/mod.rs RunLow for Rust", "backends/src/hardhat/mod.rs RunHigh for Hardhat", "backends/src/vitest/mod.rs RunHigh for Vitest", "backends/src/ts/utils.rs install_node_modules", "backends/src/ts/vitest.rs extract_it_messages", "core/src/core.rs perform_exec"]}
{"id": "C76", "title": "What is removed from Foundry tests", "statement": "In a Solidity file, the tests are the functions named test… that are not pure and have a body, except the ignored ones. A statement that Necessist removes is a statement of such a test (not its last one) or of a function of the file that the test calls, directly or through others that may be walked; it does not follow vm.prank or vm.expect… immediately, nor is it within a statement that does; it is no control statement (break, continue, emit, return, revert), no declaration and no compound statement with statements in it, and not an ignored call. A method call that it removes is the last one of a call of such a test or function and is not ignored. No plain statement and no method call of a test or of a function it calls is overlooked, except for what is not reached through calls (operands, assigned values, receivers). Visiting the file ends, and without a panic.", "quantifier": "all Solidity syntax trees in which no statement is a field access on the result of a call (f().x;), all configurations, all suppressed spans", "why_tests_cant": "Every shape of syntax tree counts (nesting, chains of calls, blocks after cheatcodes, functions that call each other), and completeness is about what is not reported.", "anchors": ["backends/src/foundry/visitor/mod.rs visit, Visitor, collect_local_functions, filter_statements", "backends/src/foundry/visitor/visit.rs", "backends/src/foundry/mod.rs ParseLow for Foundry", "backends/src/generic_visitor.rs GenericVisitor"]}
{"id": "C77", "title": "Which files are searched", "statement": "Told to look at a file, a framework looks at that file. Told to look in a directory (or told nothing, which means the root), it looks in its subdirectory (test for Foundry and Hardhat, tests for Anchor, otherwise the directory itself) at exactly the files whose names are those of tests (.t.sol, _test.go, Test.php, .rs, .js or .ts; .test-d.ts only for Mocha), at any depth, except what is hidden or left out by rules such as .gitignore, what is called target (Rust), what is in directories called vendor (PHP), and what is reached only through links to directories. Nothing else is ever dry-run, built or modified. If something that would have to be searched cannot be read, the program fails and leaves everything as it is.", "quantifier": "all directory trees (with links and unreadable entries), all rules, all frameworks, all paths given, all runs of the program", "why_tests_cant": "A file that is overlooked, or one that is searched though it should not be, can be anywhere in a tree of any depth.", "anchors": ["backends/src/foundry/mod.rs walk_dir", "backends/src/go/mod.rs walk_dir", "backends/src/php/mod.rs walk_dir", "backends/src/rust/mod.rs walk_dir", "backends/src/ts/inner/mod.rs walk_dir", "backends/src/ts/vitest.rs path_predicate", "backends/src/parsing.rs ParseAdapter::parse"]}
{"id": "C78", "title": "The documented names are ignored", "statement": "A function, macro or method is ignored exactly if the README's section on the framework lists it (by name, or as something beginning with a given text; for methods, whatever the receiver) or it matches a pattern of the user's configuration. What a framework ignores by itself is never a reason to refuse a configuration. Ignored macros are used only by Rust; for other frameworks, and for no other option, there is a warning.", "quantifier": "all frameworks, all names, all accepted configurations, all warning options", "why_tests_cant": "The statement is about every name, including those that are not to be ignored, and every configuration that is merged with the built-in lists.", "anchors": ["backends/src/*/mod.rs IGNORED_FUNCTIONS, IGNORED_MACROS, IGNORED_METHODS", "backends/src/ts/inner/mod.rs ParseLow for Inner", "backends/src/parsing.rs check_config, compile_config", "README.md Details"]}
{"id": "C79", "title": "From source text to removal", "statement": "Whatever the program removes while it builds or runs a test is something that may be removed for that test according to the grammar of the file's language (statements other than the test's last, control statements, declarations; method calls), the file's comments and the configuration together with the framework's built-in names, in a file at which the chosen framework looks. Conversely, after a complete run from scratch, whatever has to be tried for a test in such a file (plain statements and method calls that are not ignored, of the test or of a function that it calls and that is to be walked) has been tried, up to the first of its tests that does not pass, with the result in the database, or is recorded as skipped because the file's dry run failed. --dump-candidates lists only the former and all of the latter. Nothing in another file is touched on account of a file.", "quantifier": "all seven frameworks, all projects (directory trees, file contents, syntax trees), all configurations, all options, all outcomes of tests and commands", "why_tests_cant": "It joins every stage - choosing the framework, walking the directory, comments, configuration, visiting, the database, running - so a gap between any two of them for any file or configuration breaks it.", "anchors": ["core/src/core.rs necessist, necessist_inner, run", "backends/src/parsing.rs ParseAdapter::parse, visit_source_file", "backends/src/*/mod.rs parse_source_file, visit_file, walk_dir", "backends/src/generic_visitor.rs"]}
{"id": "C80", "title": "A result means what it says", "statement": "Every removal that the program records in the database or prints is of something that may be removed (C79), with its exact text, and its outcome is true of the commands that were executed: 'passed' means that each of its tests was started by the framework's own command for that test, after all that has to succeed beforehand did, with only this removal in the source files (and its identifier in the environment), ended by itself before the timeout, successfully, and - where the framework's output is looked at - that the output showed that the test ran; 'failed', 'timed-out' and 'nonbuildable' mean that those of its tests before some test passed and that this one ended unsuccessfully, was still running at the timeout and was killed, or could not be built (or was not among the tests that a dry run reported); 'skipped' means that the dry run of its file, with the files as they were at the start, failed. After a complete run from scratch, whatever has to be tried has a row that is true in this sense, unless the output of one of its tests did not show that it ran.", "quantifier": "all frameworks, all projects, configurations, options, outcomes of commands and of test processes, and all ways in which the program can end", "why_tests_cant": "It joins what is parsed, what is executed and what is reported, for every sequence of outcomes; a test can only look at one project and one sequence.", "anchors": ["core/src/core.rs run, process_options, attempt_removal, update_past_removals, emit", "backends/src/running.rs RunAdapter", "backends/src/lib.rs to_implementation", "backends/src/*/mod.rs dry_run, command_to_build_test, command_to_run_test", "backends/src/ts/*.rs"]}
{"id": "C81", "title": "Every warning that is due is printed, and no other", "statement": "In one execution of the program, from its start, the warnings printed are exactly the messages for what calls for a warning, in that order, up to the point where the execution ends: first the deprecated option; then options of the configuration that the framework does not support; then, file by file, misplaced and unknown directives, a file that cannot be parsed, tests whose module path is unknown, functions whose definition is ambiguous; then a database that is to be reset or resumed but does not exist; then, as they happen, dry runs that fail and files that cannot be built when instrumented (each naming the file), and entries of the database that do not fit. A warning that is denied ends the execution with exit code 2; otherwise its message is printed unless it is allowed, --quiet is given, or it is of a kind to be printed once and has been; the first message of a kind says how to allow it, and the first about a potential bug asks for a report.", "quantifier": "all options, projects, configurations, databases, frameworks' answers, and all ways in which the execution can end", "why_tests_cant": "The order and number of messages depends on the whole history of the execution and on the state kept between warnings; a test looks at one warning in one project.", "anchors": ["core/src/warn.rs warn_internal", "core/src/core.rs necessist, run, update_progress, instrument_statements", "core/src/sqlite.rs init", "backends/src/parsing.rs check_config, visit_source_file", "core/src/directives.rs"]}
{"id": "C82", "title": "The warning about changed files is right", "statement": "When a run is resumed, the warning that the configuration or the source files have changed since the database was created is printed if and only if they have: if the database's entries are not those of the first candidates (in order). It names an entry of the database, and calls it missing if there is no longer a candidate for it, or unexpected if there is an earlier candidate without an entry. If nothing has changed, the user is not told so.", "quantifier": "all options, projects, databases (sets of rows), candidates found, frameworks' answers (including failing dry runs), and all ways in which the run can end", "why_tests_cant": "Whether the warning is due depends on the whole list of entries and the whole list of candidates and on which files are skipped in between; a test compares one pair of lists.", "anchors": ["core/src/core.rs skip_past_removals, update_progress, run", "core/src/sqlite.rs init"]}
{"id": "C83", "title": "Functions with several definitions are reported", "statement": "If a test calls, by its name, a function of its file that has more than one definition (directly, or from a function it calls, and not within an ignored call), then a warning names the function, since only the first definition is gone into. For each file there is at most one such message; it lists the functions in order, each once; and each function it names is called by its name in the file, by a test or by a function that tests may call, and has at least two definitions.", "quantifier": "all options, projects, files, configurations, and functions calling each other however deep or in cycles", "why_tests_cant": "Whether a function is exercised depends on the whole call graph of the file and on the order in which functions are visited.", "anchors": ["backends/src/generic_visitor.rs visit_call", "backends/src/parsing.rs visit_source_file", "core/src/warn.rs"]}
{"id": "C84", "title": "The notices about files follow the dry runs", "statement": "While tests are run, a notice that a file's tests are dry run is printed before each dry run, and a notice that the file is mutilated is printed after each dry run that did not fail, before anything of the file is removed, and for no other file; in the order in which this happens. If the program is broken off, the last notice may be missing. With --quiet, and if tests are not run, there are no notices.", "quantifier": "all options, projects, frameworks' answers, databases, and all ways in which the execution can end", "why_tests_cant": "It must hold for any number of files, whichever dry runs fail, and at every point where the program can be broken off.", "anchors": ["core/src/core.rs run"]}
{"id": "C85", "title": "Rust tests whose module path is unknown are reported", "statement": "In a Rust project, if a file that is searched for candidates lies neither in src nor in tests of its package (or is src/bin itself), then a warning is printed for each name of a test in it, in order, with the reason given once for each test of that name; no candidates are found in it, and this is no error. For other files there is no such warning, nor in projects of other frameworks. If cargo fails to list the tests of a file, then parsing the file fails if and only if it has tests.", "quantifier": "all options, projects, Rust files, modules nested however deep, and answers of cargo", "why_tests_cant": "It must hold for every shape of file and package, and a test that is neither tried nor reported is lost silently.", "anchors": ["backends/src/rust/visitor.rs visit", "backends/src/rust/storage.rs cached_source_file_fs_module_path", "backends/src/rust/mod.rs cached_source_file_test_names", "core/src/warn.rs"]}
{"id": "C86", "title": "What is wrong with a test's output is reported, once per occasion", "statement": "If the program runs tests and succeeds, then, unless such warnings are allowed or --quiet is given: for each time that a test ended in time but its output did not show that it ran, exactly one warning with the candidate, the test and the output is printed; for each line of an output that was looked at that is not text, exactly one warning; and for each Hardhat, Vitest or Anchor test that its file's dry run did not list, exactly one warning for the first candidate for which it was to be run, and no further one. All these warnings are printed in the order in which they arise, no other warning of these kinds is printed, and if one is denied the program does not succeed.", "quantifier": "all options, projects, frameworks, candidates, test outputs, dry-run outputs and orders of events", "why_tests_cant": "Whether a test was run at all is visible to the user only through these warnings; that none is lost, duplicated or attributed to another candidate must hold for every output and every history of dry runs.", "anchors": ["backends/src/running.rs exec/postprocess", "backends/src/ts/inner/mod.rs exec", "backends/src/lib.rs RunAdapter", "core/src/warn.rs warn, source_warn", "core/src/core.rs perform_exec"]}
{"id": "C87", "title": "The command line means what it says", "statement": "The program runs with given options and extra arguments exactly if the command line consists of well-formed pieces (the documented flags, `--name value` or `--name=value` with a value that the option accepts, and file names not starting with `-`), no option but --allow and --deny is given twice, and it may end with `--` followed by the extra arguments, which are passed on verbatim whatever they look like. Every command line has at most one such reading. Otherwise nothing at all is changed, and the exit code is 0 if help or the version is asked for before any mistake, and 2 else. Reordering the pieces, files among themselves excepted, changes nothing but the order in which allowed and denied warnings are listed; every combination of options can be expressed; and each name that a warning message suggests for --allow and --deny is accepted there and denotes that warning.", "quantifier": "all command lines, options, arguments, and states of the machine", "why_tests_cant": "There are infinitely many command lines; that no piece is swallowed by another one (a value that looks like an option, an option after `--`), and that no order or combination of options is misread, must hold for all of them.", "anchors": ["core/src/cli.rs Opts, From<Opts>", "necessist/src/main.rs main", "core/src/warn.rs Warning, Display", "core/src/framework.rs FromStr"]}
{"id": "C88", "title": "Arguments after `--` reach every command", "statement": "When the program runs tests, each command that it executes is one that the framework's plan (C75) calls for, and has, unless it installs dependencies, the arguments that stand after `--` on the command line, unchanged and in their order, whatever they look like; they come last, except that `cargo test` is told after them which test to run.", "quantifier": "all command lines, projects, frameworks, candidates and behaviours of commands", "why_tests_cant": "The arguments pass through the parser of the command line, the options, and each of the places where the seven frameworks construct commands for dry runs, builds and tests; none may be lost, split or taken for an option, for any arguments.", "anchors": ["core/src/cli.rs Opts::zzargs", "backends/src/running.rs RunAdapter", "backends/src/anchor/mod.rs", "backends/src/hardhat/mod.rs", "backends/src/vitest/mod.rs", "backends/src/rust/mod.rs command_to_run_test"]}
{"id": "C89", "title": "The limit on the number of threads applies to tests, and only to tests", "statement": "Necessist counts the running threads at most once, before it runs the first test. Each test is run with a soft limit on the number of the user's threads of 1024 more than that, or the hard limit if that is less; everything else (dry runs, builds, `postprocess`, killing tests, counting threads) is run with the limit that the user had set. The hard limit is never changed. When a run succeeds, the soft limit is what it was before. If the soft limit remains changed, then the run failed or does not end, and the last thing that was run is a test.", "quantifier": "all runs, backends, candidates, timeouts, limits, and behaviours of `ps`, `getrlimit`, `setrlimit` and of tests, whether or not the run ends", "why_tests_cant": "The limit is set and put back around every single test, with several exits in between; that it is always in place for tests and never for anything else must hold for every sequence of tests, timeouts and failures.", "anchors": ["core/src/core.rs perform_exec", "core/src/core.rs mod rlimit", "core/Cargo.toml limit_threads"]}
{"id": "C90", "title": "--verbose changes nothing but what is printed", "statement": "Running necessist with --verbose instead of without ends with the same exit code and leaves the same database, configuration, source files and outside world, having taken the same steps (tests built, run, killed; files instrumented) and given the same warnings; what is printed is the same in the same order, except that with --verbose the removals of candidates that did not pass are printed too, and that without it --dump may end with the note that more would be shown.", "quantifier": "all projects, frameworks, option lists without --quiet, databases, histories and behaviours of the outside that do not depend on what has been printed", "why_tests_cant": "it relates two whole executions for every project and every behaviour of the tests; a test compares two runs of one project", "anchors": ["core/src/core.rs: emit_to_console, dump, process_options, run"]}
