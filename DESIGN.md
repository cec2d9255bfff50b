# A Lean 4 model of necessist

Everything is in `/verif/lean` (a Lake project; core Lean and Std, no Mathlib). For an area `X` of the code there are up to four files:

* `Verif/Model/X.lean`  — the model: total computable definitions, each citing `/repo` file:lines;
* `Verif/Spec/X.lean`   — the vocabulary in which the properties are stated: small definitions that do not use the model's helpers;
* `Verif/Lemmas/X.lean` — helper lemmas;
* `Verif/Props/X.lean`  — the property theorems (named `Cnn_…`; `_partial` if only a part is proved; `_negation` if what one would
  expect is false of the code, with a witness), and examples that hypotheses are met by concrete, non-trivial cases (`Props/*Demo.lean`
  where these are long).

`MANIFEST.json` is generated by `gen_manifest.py` from the theorem names and `manifest_notes.json`; the last section of this file by
`gen_axioms.py`. `seeded/LOG.jsonl` lists the wrong programs against which the theorems were tested.

## Modelling conventions

* Rust `Result`, panics and non-termination: `Res` has `ok`, `err`, `panic` and `hang`. Panics unwind and so run destructors (no profile
  of the workspace sets `panic = "abort"`); `hang` does not.
* `&mut` state is threaded; loops become structural recursion over the data they consume, or well-founded recursion where the data is
  not consumed structurally. There is no fuel in any theorem's statement except in `transitive_kill` (C46), where the theorem says that
  enough steps exist.
* Everything outside the program (backend commands, builds, test processes, failing writes, the arrival of Ctrl-C, git, the order in which
  a directory is walked) is a parameter: an arbitrary environment with its own arbitrary state, which sees the whole world at each call.
  So every theorem holds for every behaviour of it, also nondeterministic ones.
* Text is `List Char`; lines and columns count characters, as `rewriter` and `proc_macro2` do. Conversions from bytes are modelled
  separately (C53).
* `BTreeMap`/`BTreeSet` are strictly sorted association lists; `IndexMap`/`IndexSet` are duplicate-free lists.

## Trusted base

* Lean's kernel; axioms at most `propext`, `Classical.choice`, `Quot.sound` (last section). No axioms of our own, no compiled-code
  tactics; `decide +kernel` only evaluates closed terms, in examples and witnesses.
* The reading of the Rust source: the code is not run here, and nothing but the citations links a definition to the code.
* External crates are modelled from their documented behaviour: `rewriter` (Backup, Rewriter, OffsetCalculator), `regex` (leftmost-first
  semantics for the fixed expressions used), SQLite/diesel (primary key and CHECK on insertion, transactions not needed), `toml`/serde
  (flattened unknown keys), `indexmap`, `heck` (kebab case of the names that occur), `sha2` (an arbitrary function), tree-sitter cursors,
  `semver` (an arbitrary order), `toml_edit`, `walkdir`, `subprocess` (`wait_timeout`), `clap` (parsing of arguments).
* Facts about the operating system taken as assumptions: restoring a backup succeeds; `flock` is exclusive and is released when its holder
  ends; the process tree does not change while it is being killed (C46); the outside does not modify source files (C01–C03), though it may
  modify Anchor.toml while `anchor test` runs (C62).

## What is modelled, and what is not

| code | model | left out |
|------|-------|----------|
| necessist/src/main.rs | `Main` | `env_logger` |
| core/src/cli.rs, and clap's parsing of the command line | `Cli` | arguments that are not UTF-8, texts of help and of usage errors |
| core/src/core.rs `necessist`, `prepare`, `dump*` | `Main` | whether a progress bar is shown (its position is kept) |
| … `run`, `skip_*`, `update_progress`, `instrument_statements`, `perform_exec`, `emit*`, `timeout` | `Run`, `Instrument`, `Limit` | |
| … `sqlite_and_past_removals_init_lazy`, `dump`, beginning of `run` | `Sqlite` | |
| … `process_options`, `default_config`, `canonicalize_source_files`, `backend_for_framework` | `Options`, `Config`, `Parse`, `Framework` | |
| … `lock_root`, core/src/flock.rs | `Lock` | Windows |
| … `transitive_kill`, `child_processes` | `Kill` | Windows; signals that are ignored |
| core/src/config.rs | `Config`, `Regex` | the limit on the size of compiled expressions; order of error detection |
| core/src/framework/ | `Framework`, `Parse` | aliases and hidden variants (there are none) |
| core/src/outcome.rs, span.rs, source_file.rs, warn.rs | `Outcome`, `Span`, `Text`, `Warn`, `Cache` | non-UTF-8 paths; colours |
| core/src/skill.rs | `Skill` | YAML syntax, version comparison (parameters); links |
| core/src/sqlite.rs | `Sqlite`, `Url`, `Run` | corrupt database files (an error, as a parameter) |
| backends/src/directives.rs | `Directives` | |
| backends/src/generic_visitor.rs | `Visitor` | |
| backends/src/parsing.rs | `Parse` | |
| backends/src/running.rs | `Commands`, `Exec`, and as parts of the environment in `Run` | reading temporary files failing; `NECESSIST_CHECK_MTIMES` |
| backends/src/tree_sitter_utils.rs | `Cursor`, `Columns` | tree-sitter's parsers |
| backends/src/anchor/ | `Anchor`, `Commands` | TOML parsing and printing (parameters) |
| backends/src/foundry/ | `Foundry`, `Columns`, `Exec`, `Commands` | solang's parser |
| backends/src/go/ | `TreeSitter`, `Go`, `Cursor`, `Exec`, `Commands` | tree-sitter's parser and query engine (queries are modelled by what they match) |
| backends/src/php/ | `TreeSitter`, `Cursor`, `Directives`, `Commands` | likewise |
| backends/src/rust/, backends/build/syn.rs | `Rust`, `RustVisitor`, `Cache`, `Exec`, `Commands` | `cargo metadata`, syn's parser; expressions in attributes |
| backends/src/ts/, hardhat, vitest | `TypeScript`, `ItMessage`, `Commands` | swc's parser (nodes that the visitor does not tell apart are one kind of node); Windows |
| the frameworks' `walk_dir`, crate `ignore` | `Walk` | the rules of `.gitignore` and the like (a parameter); errors of such files in parent directories; names that are not UTF-8 |
| `IGNORED_FUNCTIONS`, `IGNORED_MACROS`, `IGNORED_METHODS` | `Builtins` | |
| the frameworks' `parse_source_file`, `local_functions` | `Sources` | |
| `to_implementation`, as far as it is about executing commands | `Results` | |
| the guards the backends insert | `Guard` (a small language with blocks) | the languages' full semantics |

What cannot be expressed: real time (only the comparison of a duration with the timeout), memory exhaustion, metadata of files, and what
the compilers under test do.

## Per-property plan

| id | modelled | how proved |
|----|----------|-----------|
| C01–C03 | `run`, `instrument_statements`, `Span::remove`, backups as world transformers over an arbitrary environment (`Run`) | triples with separate postconditions for success, error/panic and non-termination (`Lemmas/Run`); invariant over the loop |
| C04 | line/column → offset, `Rewriter::rewrite` (`Text`) | decomposition `prefix ++ text ++ suffix` (`Located`) |
| C05 | insertion map and rewriter (`Instrument`) | induction on the sorted insertions |
| C06 | block-structured language with guards (`Guard`) | structural induction, semantic equivalence in every state |
| C07–C09 | `try_fold`, `perform_exec`, `timeout` (`Run`) | induction on the tests; decomposition of the trace (`Lemmas/RunLog`, `RunChain`); `C07_program` for the rows that `Main.main` adds |
| C10, C15, C16, C18 | `Run` | induction over files and candidates; `C15_program`, `C16_program` lift C15 and C16 to `Main.main` |
| C11–C13 | `skip_past_removals`, histories of runs (`Run`, `Sqlite`) | merging of sorted lists; C12 is false in general |
| C14 | `sqlite::init` (`Sqlite`) | case analysis for all databases |
| C17 | `emit_to_console`, `dump` | filters over lists |
| C19–C22 | `Span` display/parse, order, outcome strings | string lemmas |
| C23–C27 | patterns compiled to a regex AST with its language, merge/compile/read (`Config`, `Regex`) | induction on the pattern |
| C28–C30 | `warn_internal` as a state machine (`Warn`) | induction over histories; `C30_program` for all the warnings of a run |
| C31 | option lists (`Options`) | iff, for all options |
| C32–C34 | directive scanner (`Directives`) | list lemmas |
| C35–C40, C65, C66 | `GenericVisitor` over an abstract syntax tree (`Visitor`) | a declarative specification of what is found where (`Spec/Visitor`), mutual structural induction, invariant of the loop over walkable functions |
| C41, C64 | `ParseAdapter::parse`, `extend` (`Parse`) | permutation invariance, induction over files |
| C42, C43 | `Auto`, `Union` (`Framework`) | case analysis, list lemmas |
| C44 | `canonicalize_source_files` (`Parse`) | list lemmas; canonicalisation is a parameter |
| C45 | lock protocol as a transition system (`Lock`) | invariant over all interleavings |
| C46 | `transitive_kill` stack machine (`Kill`) | simulation of a post-order traversal |
| C47 | postprocess fold (`Exec`) | induction over lines |
| C48 | it-message state machine (`ItMessage`), also in the run loop | invariant over histories |
| C49–C51 | skill (`Skill`) | case analysis; header by list lemmas |
| C52 | bounded cursor (`Cursor`) | structural induction over trees |
| C53, C54 | column conversions, `trim_start` (`Columns`, `Text`) | list lemmas |
| C55 | Solidity's syntax trees and their presentation to the visitor (`Foundry`) | instance of the visitor's theorems, structural induction |
| C56 | regular expressions for `import "os"` with leftmost-first matching (`Go`) | match enumeration |
| C57, C58, C67, C68 | packages, module paths, flags, tests (`Rust`) | path lemmas; specification of cargo's target discovery and the compiler's module paths (`Spec/Rust`) |
| C59 | memo tables, table of source files (`Cache`) | invariant over request histories |
| C60 | `url_from_span` (`Url`) | string lemmas |
| C61, C63, C69 | the whole program (`Main`), composing `Options`, `Framework`, `Config`, `Parse`, `Sqlite`, `Run`, `Skill`, `Lock` | case analysis over the phases; program-level versions of C01–C03, C10, C11, C13, C14, C17, C18, C27, C28, C31, C39, C42, C44, C45, C50, C64 in `Props/Main*` |
| C62 | Anchor.toml, with the backup's owner explicit, as an instance of the run loop's environment (`Anchor`) | a rule for conditions that hold outside of the execution of a test (`Lemmas/RunOwn`) |
| C70, C71 | tree-sitter's trees with kinds and fields, the two visitors moving a bounded cursor over them and calling the generic visitor (`TreeSitter`) | refinement: a visit by cursor is a visit of the generic visitor of the tree it sees (`Lemmas/TreeSitter`), then the visitor's theorems, translated back to tree-sitter's trees (`Spec/GoVisitor`, `Spec/PhpVisitor`) |
| C72 | swc's trees, the recursive visit that calls the generic visitor, the collection of function declarations (`TypeScript`) | refinement: the visit is the generic visitor's visit of the lowered tree (`Lemmas/TypeScript`), then the visitor's theorems, translated back to the syntax (`Spec/TypeScript`, `Lemmas/TypeScriptSpec`) |
| C74 | syn's trees, the recursive visit that calls the generic visitor and asks `cargo` about the tests, the collection of functions (`RustVisitor`) | refinement: the visit is the generic visitor's visit of the lowered tree, in which the tests are those that `cargo` lists (`Lemmas/RustVisitor`), then the visitor's theorems, translated back to the syntax (`Spec/RustVisitor`, `Lemmas/RustVisitorSpec`) |
| C76 | the recursive visit of solang's trees that calls the generic visitor, with the blocks' statements filtered, and the collection of functions (`Foundry`) | refinement: the visit is the generic visitor's visit of the lowered tree (`Lemmas/Foundry`), then the visitor's theorems, translated back to the syntax (`Spec/Foundry`, `Lemmas/FoundrySpec`) |
| C75 | `RunAdapter` and the commands of all frameworks, as an instance of the run loop's environment that records what is executed (`Commands`) | each framework implements a plan written in the user's terms (`Spec/Commands`, `Lemmas/CommandsFw`); a rule for conditions that hold between the steps of a run (`Lemmas/RunSteps`); what the tools select is a small specification of their patterns (`Spec/Pattern`) |
| C77 | `walk_dir` over directory trees with links and unreadable entries (`Walk`) | mutual structural induction: what the walk yields is what `Found` (`Spec/Walk`) describes; composed with the search for candidates and the whole program |
| C78 | the constants `IGNORED_…` of all frameworks (`Builtins`) | against a transcription of the README (`Spec/Builtins`): the lists are compared by the kernel, and what a pattern means is C23, C24, C26 |
| C79 | how `parse_source_file`, `walk_dir`, the built-in names and the generic visitor are put together for each framework (`Sources`) | C70-C72, C74, C76 per file, put through C41, C64 and C77 to `FindsCandidates`, and through C10 and C61 to the program; that the spans lie in the files is proved by induction on the syntax trees (`Lemmas/SourcesSpans`) |
| C80 | which framework executes commands in which way (`Results`), on top of `Sources`, `Commands`, `Run` and `Main` | the history of C75 is cut into parts with the snapshots of the source files (C02); each result is explained by its part; through C17's log, which is linked to the results, to rows and lines |
| C81 | the calls of `warn` everywhere (`Warn`, `Config`, `Directives`, `Parse`, `Sqlite`, `Run`, `Main`) | which calls are due is a specification (`Spec/Warnings`, `Spec/RunWarnings`, `Spec/MainWarnings`), shown stage by stage with a triple over the run (`Lemmas/RunWarnings`); what is printed for a sequence of calls is a second specification (`Results`), shown by induction with an invariant on the states |
| C82 | `skip_past_removals`, `update_progress` in a run (`Run`), the program (`Main`) | `Consistent` (spans of the entries and of the candidates, one a prefix of the other) is the specification; an invariant over the run relates what is left of the entries to what is left of the candidates (`Lemmas/RunChanged`), and is fed to C81. The full claim is false (negations) |
| C83 | `visit_call`'s set of ambiguous functions (`Visit`), the message (`Parse`), the program (`Main`) | Soundness: the visit records a name only at a call by that name with several definitions. Completeness: a function exercised by a test is gone into (C36), and whoever first went into it did so by its only name (`OneName`, proved per framework). In the program by C81. Full claim false for Rust (`C83_negation`) |
| C84 | `run`'s notices (`Run`, `Main`) | Everything but the two notices and the dry runs leaves both lists alone (`Hushed`); the loop over files adds to both as specified (`Adds`), by induction |
| C85 | the tests met by the Rust visitor (`Rs.visitFile`), the messages (`Rs.unknownCalls`), the program (`Main`, `Sources`) | The visit meets the tests of the file in order, at every point where one is met the same answer is given (`Idle`, `Comes`); that the module path is unknown exactly for files outside `src` and `tests` by path lemmas (`relativePath_none`); in the program by C81 |
| C86 | the backends' messages while tests are run (`Exec.postprocess`, `ItMessage.exec`, `Cmd`), the program (`Main`) | An invariant that links the steps of C75, what has been printed, and the table of tests about which there was a warning (`Told`), kept by each step (`told_step`); the frameworks keep it (`Speaks`); in the program, where no other part gives warnings of these kinds, by `C86_program`, and for each kind by `allReports_kinds`. Given that what surrounds the frameworks (running commands, files) gives no warnings (`Mute`). |
| C87 | core/src/cli.rs and clap's parser (`Cli`), `main` from its arguments on | The specification says which pieces (`Item`) a command line may consist of and what they say (`Says`). Induction over the arguments: whenever the parser succeeds there are such pieces (`parse_explains`), and it accepts all of them (`parse_items`); the parser is a function, so that readings are unique. Orders: permutations of pieces that keep those of files. |
| C88 | the program from its command line on (`Cli`, `Main`), the frameworks' commands (`Commands`, `Results`) | C75 for the program (`C75_program`, from `necessist_whole` and `planned`), and inspection of the commands in each framework's plan. |
| C89 | `perform_exec` with the thread limit and `mod rlimit` (`Limit`); `ps`, `getrlimit`, `setrlimit` are parameters | The limit as something around the backend, shown to be the same (`C89_model`); then an invariant of runs (`Settled`, Lemmas/RunOwn) that distinguishes success from failure. |
| C90 | `Main.main` twice, with `--verbose` and without | simulation: the two runs' worlds differ only in what has been printed (`Lemmas/RunVerbose`), for an outside that does not depend on that (`Deaf`); the seven frameworks do not, if the commands they execute do not (`Lemmas/Blind`, `C90_frameworks`) |
| C08, C73 | run loop, execution of a test, whole program (`Run`, `Main`) | rule `Sure` (`Lemmas/RunJust`): every computation keeps "each recorded result has a reason in the log" and hangs only where a wait without a limit does |

## Findings

Places where the code does not do what one would expect. Where there is a theorem it is named.

*Runs and the database*
* An interrupted run cannot always be resumed: past removals are read in span order, but statements come before method calls; a recorded
  method call that precedes an unrecorded statement makes recorded candidates run again, and then inserting them fails (`C12_negation`).
  So does a gap left by a candidate whose outcome could not be determined (`C12_negation_gap`).
* The warning that sources have changed is given after an interruption though nothing has changed, for the same reason (`C82_negation`), and
  is not given if candidates at the end are gone (`C82_negation_removed`): entries after the last candidate are never looked at.
* A database file without table (a run killed at the wrong moment) is refused by --dump, --resume, and without options
  (`C14_empty_is_stuck`).
* The announced number of candidates, and so the total of the progress bar, counts pairs of a candidate and a test (`C69_negation`); the
  number of tests counts a file twice that is given twice.
* The error paths of `perform_exec` do not restore the thread limit (C89). The limit that is set for tests may be greater than the soft limit
  that the user had set: it is lifted, not only lowered (Props/LimitDemo). Without `ps` in the path, the first test causes a panic.
* `transitive_kill` sends SIGTERM, which can be ignored; then `job.wait` blocks for ever. Killing necessist itself with SIGKILL leaves the source file (and Anchor.toml) mutilated.
* A panic exits with code 101, not 2.

*Spans and text*
* A displayed span cannot be read back if the path contains a colon; column 0 underflows (`C19_negation`…).
* Foundry's columns are wrong exactly if non-ASCII characters precede on the line (`C53_negation_foundry`); tree-sitter positions at the end
  of the file panic (`C53_point_eof`); walking a leaf with a bounded cursor never ends properly (`C52_leaf`).
* Statement spans that share an end would be wrapped in the wrong order (`C05_shared_end_not_nested`).
* Guards rely on 64-bit truncated hashes being distinct (`C06_collision_removes_all`); a guard changes the meaning of an unbraced branch
  before `else` (`C06_negation`), and textual removal of an unbraced branch swallows the next statement.

*Configuration, options, warnings*
* Merging configurations loses a scalar of the left side if the right side has none (`C26_negation_merge_forgets`); `*` does not match line
  breaks; a bug-report hint's flag is set even if the first warning was suppressed.
* PHP's applicability looks for php.xml(.dist), not phpunit.xml; an Anchor project with a Cargo.toml at its root is ambiguous; an error in
  any applicability check fails `auto`; a name shared by two enumerations is listed twice.

*Commands*
* Foundry's `--match-test NAME` selects every test whose name contains the name (`C75_foundry_selects`).
* PHPUnit's filter `^.*::NAME$` does not select the cases of a test with a data provider, which PHPUnit calls `CLASS::NAME with data set …`
  (`C75_php_selects`); PHP's output is not looked at, so what such a removal is reported as depends on PHPUnit's exit code when it runs nothing.
* User arguments with a `--` make cargo pass a second `--` before `--exact` (`C75_rust_selects_otherwise`).
* If Hardhat's compiler cannot be executed, removals are nonbuildable (`lenient` in `hardhatPlan`), with other frameworks this ends the run.

*Finding candidates*
* Indirect callers of a walked function are lost (`C38_negation`); functions called outside of tests are overlooked (`C36_negation`);
  arguments of an ignored call are visited if it is the last or an unremovable statement (`C37_negation`); the disambiguation "Function" has
  no effect (`C65_negation`); panics on nested tests, tests within walkable functions, and Foundry's `f().x;` (`C66_negation_*`).
* A statement whose key equals that of the last one is never a candidate; a call of an already walked function becomes one; Go and PHP skip
  the receiver of ignored calls; Rust merges functions with structurally equal bodies.
* Foundry: `vm.prank` itself is removable while what follows is skipped; the event of `emit I.E(x);` is a candidate (`C55_emit_event`); a
  declaration without body hides the definition of the same name (`declaration_hides`); "test" is joined to any directory given;
  one unreadable file aborts parsing altogether. Only calls are looked into: in `x = t.m();`, `t.m() + 1;` and for the receiver of
  `t.m().n();`, the method call is no candidate, nor is a function in `x = helper();` gone into (`only_calls`), while initial values of
  variables and the arguments of modifiers are looked at (`initial_value`, `modifier_arguments`). `f{…}();` is not recognised as a call of
  an ignored function, but as one of a function to go into (`options_ignored`).
* Go: a multi-letter alias in a parenthesised import is captured as its shortest suffix that is an identifier (`C56_negation`); the blank
  identifier is used as a name; comments and strings count as imports and package clauses (`C56_negation_comment`, `C56_negation_package`).
* Go and PHP: a statement without children (Go's `fallthrough`, or what tree-sitter makes of text that it cannot parse) in a test makes
  Necessist panic (`C70_negation_leaf`, `C71_negation_leaf`). tree-sitter never fails, so syntax errors are not reported as such. Functions
  like `Testify` count as Go tests, though `go test` does not run them. A test method of an anonymous class within a PHP test is a test
  itself, and its statements are attributed to both.
* TypeScript: the statement `await it(…);`, tests within tests, and tests within functions that a test calls make Necessist panic
  (`C72_negation_await`, `C72_negation_nested`, `C72_negation_function`); an overload signature hides the function of the same name
  (`C72_negation_overload`); tests written `it.only(…)`, `test(…)` or `it("…", async () => expr)` are not tests.
* Rust: a function with several definitions is not reported if its first definition's body equals that of a function visited before
  (`C83_negation`).
* Rust: functions with equal bodies (spans disregarded) are taken for one another, so statements are attributed to tests that do not call
  them, and those of the other function are overlooked (`C74_negation_merge`); a statement that looks like the last one of the test is never
  removed (`C74_negation_last`); `match` is not among the expressions that end with a block, so a `match` without semicolon is never removed
  (`C74_negation_match`); a method call `x.name()` is taken for a call of the function `name` of the file, whatever `x` is
  (`C74_negation_method`); a listed test within a test makes Necessist panic (`C74_negation_nested`).
* Rust: modules called lib or main with files of their own, and modules of single-file crates, get wrong paths (`C67_negation_main`,
  `C67_negation_tests`), so tests can be confused (`C67_negation_confused`); tests of the same path in library and binaries are not told
  apart; libraries of other kinds get no flag; `TEST_PATH_ID_MAP` is never filled; the guard's `.unwrap()` panics without the variable.
* Mocha-like: an unreported `it` message makes necessist panic for instrumented statements (`C48_negation`); messages ending in "(5ms)" are
  never found; suite titles and summaries count as messages. PHP has no check that a test ran.

* Foundry, Hardhat and Anchor look for their subdirectory in whatever directory they are given, so `necessist test` fails in a project that
  has the directory `test` (`Walk.Demo.subdirectory_given`); a file that is given is searched whatever its name (`Walk.Demo.given_file`);
  links to files are followed, so that one file can be searched under two names; links to directories are not.

*Links*
* ssh:// remotes stay ssh:// or get the port as part of the path; https remotes with user and port are mangled; passwords in a remote go into
  the database; a source file outside of the work tree panics (`C60_negation_ssh`, `C60_negation_https`, `C60_panics`); paths are not
  percent-encoded.

*Anchor*
* The patched file is computed from the document as it was when necessist started; comments after the script are lost while it is patched;
  the second alternative of `MOCHA_RE` is redundant (proved within `C62_accepted`); an inline table `scripts = { … }` is refused.

## Axioms

Output of `#print axioms` for every theorem of MANIFEST.json (the prefix `Necessist.` is left out), by `gen_axioms.py`.

**none** (2): `C26_negation_merge_forgets`, `Run.C73_timeout`

**`propext`** (7): `C21_positions`, `C26_unsupported_warned`, `C26_merged`, `Framework.C42_auto`, `Framework.C42_check_fails`, `Framework.C42_explicit`, `Cache.C59_one_root`

**`Quot.sound`, `propext`** (26): `Guard.C06_negation_dangling_else`, `Run.C07_passed_iff`, `Run.C08_hangs_only_without_timeout`, `Run.C14_flags_exclusive`, `C19_display_parse_partial`, `C19_parse_sound`, `C19_colon`, `C19_exact`, `C20_display_injective`, `Visit.C24_path`, `C28_denied_always_aborts`, `C28_history_independent`, `C30_allow_hint_first_print`, `C30_bug_hint_first_call`, `C30_bug_hint_at_most_once`, `C32_warning_location`, `Framework.C43_resolves_case`, `Framework.C43_resolves`, `Framework.C43_round_trip`, `Framework.C43_all_listed`, `Exec.C47_no_outcome`, `Cursor.C52_next`, `Rust.C58_nearest`, `Rust.C58_exists`, `Anchor.C62_json`, `Limit.C89_model`

**`Classical.choice`, `Quot.sound`, `propext`** (418): `Main.C01_program`, `Run.C01_restored`, `Main.C02_program`, `Run.C02_one_removal`, `Run.C02_told_the_id`, `Run.C02_dry_run_on_original`, `Main.C03_program`, `Run.C03_at_most_one_modified`, `Run.C03_the_one_being_processed`, `C04_remove_exact`, `C04_reported_text_is_removed_text`, `C04_location_unique`, `C05_only_insertions`, `C05_succeeds`, `C05_wraps_each_statement`, `C05_wraps_with_preamble`, `C05_marks_in_span_order`, `C05_shared_end_not_nested`, `Guard.C06_instrumented_equals_removed_partial`, `Guard.C06_other_value_is_original_partial`, `Guard.C06_collision_removes_all`, `Main.C07_program`, `Run.C07_verdicts`, `Run.C08_classification`, `Run.C08_in_a_run`, `Run.C08_results`, `Main.C08_program`, `Run.C09_undetermined_not_recorded`, `Main.C10_program_nothing_else`, `Main.C10_program`, `Run.C10_nothing_else`, `Run.C10_accounts`, `Run.C10_exactly_once`, `Main.C11_program`, `Run.C11_passed_over_only_if_recorded`, `Run.C11_resume_loses_nothing`, `Main.C12_program_no_repeat_partial`, `Run.C12_no_repeat_partial`, `Run.C12_resumable_partial`, `Run.C12_negation`, `Run.C12_negation_gap`, `Main.C13_program`, `Main.C13_program_never_wrong`, `Run.C13_never_wrong`, `Run.C13_completed`, `Run.C13_same_database`, `Run.C14_refuses`, `Run.C14_dump_unchanged`, `Run.C14_keeps_rows`, `Run.C14_no_sqlite`, `Run.C14_reset_starts_afresh`, `Run.C14_reset_fails`, `Run.C14_absent`, `Run.C14_created`, `Run.C14_empty_is_stuck`, `Main.C14_program_dump`, `Main.C14_program`, `Main.C15_program`, `Run.C15_skipped`, `Run.C15_untouched`, `Run.C16_stops`, `Run.C16_checked_first`, `Run.C16_success`, `Main.C16_program`, `Run.C17_dump`, `Main.C17_program_dump`, `Main.C17_program`, `Run.C17_printed`, `Main.C18_program`, `Run.C18_progress`, `C19_negation`, `C19_column_zero_panics`, `C21_order_lexicographic`, `C21_total_order`, `C22_outcome_roundtrip`, `C22_outcome_rejects`, `C23_pattern_matches`, `C23_literal`, `C24_method_pattern_matches`, `C24_receiver`, `C25_accepted_iff`, `C25_error_names_culprit`, `C26_effective`, `C26_denied`, `C26_never_panics`, `C26_merge_refused_iff`, `C27_absent`, `C27_unknown_keys_refused`, `C27_settings`, `C27_round_trip`, `C27_default_config`, `Main.C27_program_default`, `Main.C27_program`, `Main.C28_program`, `C29_prints_iff`, `Main.C30_program`, `C30_once_prints_at_most_once`, `Main.C31_program`, `C31_accepted_iff`, `C31_error_is_truthful`, `C31_conflict_symmetric`, `C32_skip_syntax`, `C32_skip_file_syntax`, `C32_directive_text`, `C32_not_both`, `C33_skip`, `C34_skip_file`, `C34_warnings`, `Visit.C35_sound`, `Visit.C36_test`, `Visit.C36_test_methods`, `Visit.C36_function`, `Visit.C36_function_methods`, `Visit.C36_walked`, `Visit.C36_reached`, `Visit.C36_negation`, `Visit.C37_statements`, `Visit.C37_methods`, `Visit.C37_arguments_partial`, `Visit.C37_negation`, `Visit.C38_only`, `Visit.C38_statements`, `Visit.C38_methods`, `Visit.C38_tests_sound`, `Visit.C38_tests_complete`, `Visit.C38_direct_partial`, `Visit.C38_negation`, `Main.C39_program`, `Parse.C39_parse_ends`, `Visit.C39_once`, `Visit.C39_terminates`, `Visit.C40_leaves`, `Visit.C40_statements`, `Visit.C40_no_inner`, `Parse.C41_union`, `Parse.C41_files`, `Parse.C41_sorted`, `Parse.C41_order_irrelevant`, `Parse.C41_permute_repeat`, `Parse.C41_run_input`, `Framework.C42_auto_iff`, `Framework.C42_identifier`, `Framework.C42_files`, `Main.C42_program`, `Framework.C43_listed`, `Framework.C43_frameworks`, `Framework.C43_framework_names`, `Main.C44_program`, `Parse.C44_accepted`, `Parse.C44_refused`, `Parse.C44_only_under_root`, `Lock.C45_exclusive`, `Lock.C45_not_interleaved`, `Lock.C45_refused`, `Lock.C45_fails_immediately`, `Lock.C45_refused_does_nothing`, `Lock.C45_released`, `Main.C45_program`, `Kill.C46_killed`, `Kill.C46_always`, `Exec.C47_decision`, `Exec.C47_invalid_reported`, `Exec.C47_not_run_reported`, `Exec.C47_decided`, `Exec.C47_frameworks`, `ItMessage.C48_executed_iff`, `ItMessage.C48_warned_once`, `ItMessage.C48_warned`, `ItMessage.C48_in_map`, `ItMessage.C48_warning`, `ItMessage.C48_run`, `ItMessage.C48_not_reported_partial`, `ItMessage.C48_mocha_gas`, `ItMessage.C48_mocha_time`, `ItMessage.C48_mocha_plain`, `ItMessage.C48_mocha`, `ItMessage.C48_dry_run`, `ItMessage.Demo.C48_negation`, `Skill.C49_check`, `Skill.C49_reported_iff`, `Skill.C49_printed`, `Skill.C49_warning`, `Skill.C49_find`, `Main.C50_program`, `Skill.C50_no_write`, `Skill.C50_changes`, `Skill.C50_untouched`, `Skill.C50_find_creates_nothing`, `Skill.C50_idempotent`, `Skill.C50_find`, `Skill.C51_header`, `Skill.C51_unique`, `Skill.C51_refused`, `Cursor.C52_walk`, `Cursor.C52_visited`, `Cursor.C52_leaf`, `Columns.C53_point`, `Columns.C53_point_eof`, `Columns.C53_foundry_partial`, `Columns.C53_foundry_only`, `Columns.C53_negation_foundry`, `C54_trim_start`, `Foundry.C55_statements`, `Foundry.C55_methods`, `Foundry.C55_semicolon`, `Foundry.C55_no_semicolon`, `Foundry.C55_text`, `Foundry.Demo.C55_emit_event`, `Go.C56_named`, `Go.C56_unnamed`, `Go.C56_grouped`, `Go.C56_grouped_partial`, `Go.C56_negation`, `Go.C56_grouped_unnamed`, `Go.C56_none`, `Go.C56_nothing`, `Go.C56_imported`, `Go.C56_inserted`, `Go.C56_guard`, `Go.Demo.C56_negation_example`, `Go.Demo.C56_negation_comment`, `Go.Demo.C56_negation_package`, `Rust.C57_tests`, `Rust.C57_unknown`, `Rust.C57_fails`, `Rust.C57_no_panic`, `Rust.C57_relative`, `Rust.C57_fs`, `Rust.C57_names`, `Cache.C59_answer`, `Cache.C59_computed`, `Cache.C59_transparent`, `Cache.C59_contents`, `Rust.C59_rust`, `Url.C60_below`, `Url.C60_scp_partial`, `Url.C60_web`, `Url.C60_determines`, `Url.C60_no_remote`, `Url.C60_remote`, `Url.Demo.C60_negation_ssh`, `Url.Demo.C60_negation_https`, `Url.Demo.C60_panics`, `Main.C61_no_effects`, `Main.C61_candidates`, `Main.C61_candidates_fails_only`, `Main.C61_counts`, `Main.C61_same_as_run`, `Anchor.C62_accepted`, `Anchor.C62_patch`, `Anchor.C62_program_restored`, `Anchor.C62_program_only_while_testing`, `Anchor.C62_restored`, `Anchor.C62_only_while_testing`, `Anchor.C62_owner`, `Main.C63_zero`, `Main.C63_codes`, `Main.C63_one_iff`, `Main.C64_program`, `Main.C64_program_reported`, `Parse.C64_ok_iff`, `Parse.C64_reported`, `Parse.C64_denied`, `Parse.C64_others_unaffected`, `Visit.C65_exact`, `Visit.C65_partial`, `Visit.C65_negation`, `Visit.C66_no_panic_partial`, `Visit.C66_done_partial`, `Visit.C66_no_panic_functions_partial`, `Visit.C66_negation_nested`, `Visit.C66_negation_walkable`, `Visit.C66_negation_field`, `Rust.C67_partial`, `Rust.C67_negation_main`, `Rust.C67_negation_tests`, `Rust.Demo.C67_negation_confused`, `Rust.C68_test_target`, `Rust.C68_unit`, `Rust.C68_commands`, `Rust.C68_later`, `Main.C69_total_partial`, `Main.Demo.C69_negation`, `TS.Go.C70_no_panic`, `TS.Go.C70_tests`, `TS.Go.C70_statements`, `TS.Go.C70_methods`, `TS.Go.C70_ends`, `TS.Go.C70_complete`, `TS.Go.C70_complete_functions`, `TS.Go.C70_complete_methods`, `TS.Go.C70_complete_functions_methods`, `TS.Go.Demo.C70_negation_leaf`, `TS.Php.C71_no_panic`, `TS.Php.C71_ends`, `TS.Php.C71_tests`, `TS.Php.C71_statements`, `TS.Php.C71_methods`, `TS.Php.C71_complete`, `TS.Php.C71_complete_methods`, `TS.Php.Demo.C71_negation_leaf`, `Js.C72_tests`, `Js.C72_ends`, `Js.C72_statements`, `Js.C72_methods`, `Js.C72_complete`, `Js.C72_complete_functions`, `Js.C72_complete_methods`, `Js.C72_complete_functions_methods`, `Js.Demo.C72_negation_await`, `Js.Demo.C72_negation_nested`, `Js.Demo.C72_negation_function`, `Js.Demo.C72_negation_overload`, `Run.C73_run`, `Main.C73_program`, `Rs.C74_tests`, `Rs.C74_ends`, `Rs.C74_statements`, `Rs.C74_methods`, `Rs.C74_complete`, `Rs.C74_complete_functions`, `Rs.C74_complete_methods`, `Rs.C74_complete_functions_methods`, `Rs.Demo.C74_negation_nested`, `Rs.Demo.C74_negation_merge`, `Rs.Demo.C74_negation_last`, `Rs.Demo.C74_negation_match`, `Rs.Demo.C74_negation_method`, `Rs.C74_no_package`, `Rs.C74_no_list`, `Results.C75_program`, `Cmd.C75_go`, `Cmd.C75_php`, `Cmd.C75_foundry`, `Cmd.C75_rust`, `Cmd.C75_hardhat`, `Cmd.C75_vitest`, `Cmd.C75_anchor`, `Cmd.C75_started`, `Cmd.C75_ran`, `Cmd.C75_passed`, `Cmd.C75_go_selects`, `Cmd.C75_go_build_selects`, `Cmd.C75_php_selects`, `Cmd.C75_foundry_selects`, `Cmd.C75_rust_selects`, `Cmd.C75_rust_selects_otherwise`, `Foundry.C76_tests`, `Foundry.C76_done`, `Foundry.C76_statements`, `Foundry.C76_methods`, `Foundry.C76_complete`, `Foundry.C76_complete_functions`, `Foundry.C76_complete_methods`, `Foundry.C76_complete_functions_methods`, `Walk.C77_files`, `Walk.C77_unreadable`, `Walk.C77_readable`, `Walk.C77_under_root`, `Walk.C77_searched`, `Walk.C77_program_found`, `Walk.C77_program`, `Walk.C77_program_unreadable`, `C78_functions`, `C78_macros`, `C78_methods`, `C78_accepted`, `C78_unsupported`, `Sources.C79_candidates`, `Sources.C79_sound`, `Sources.C79_complete`, `Sources.C79_listed`, `Results.C80_recorded`, `Results.C80_printed`, `Results.C80_complete`, `Main.C81_warnings`, `Main.C81_none`, `Main.C81_events`, `Main.C81_events_denied`, `Main.C81_once`, `Main.C81_sources`, `Results.C81_sound`, `Main.C82_entry`, `Main.C82_fits`, `Main.C82_noticed`, `Main.C82_in_order_partial`, `Run.C82_negation`, `Run.C82_negation_removed`, `Visit.C83_sound`, `Visit.C83_test_partial`, `Visit.C83_function_partial`, `Visit.C83_negation`, `Main.C83_program_partial`, `Main.C83_program_sound`, `Main.C84_program`, `Rs.C85_visit`, `Rs.C85_visit_fails`, `Rs.C85_visit_known`, `Sources.C85_program`, `Sources.C85_program_sound`, `Results.C86_program`, `Results.C86_not_run`, `Results.C86_garbled`, `Results.C86_missed`, `Cli.C87_reading`, `Cli.C87_program`, `Cli.C87_unambiguous`, `Cli.C87_passed_on`, `Cli.C87_order`, `Cli.C87_expressible`, `Cli.C87_names`, `Results.C88_program`, `Limit.C89_limits`, `Limit.C89_restored`, `Limit.C89_program`, `Limit.C89_program_restored`, `Main.C90_program`, `Main.C90_frameworks`
