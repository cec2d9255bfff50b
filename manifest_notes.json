{
 "C06": {
  "note": "false for unbraced branches (C06_negation: dangling else); proved for braced code"
 },
 "C12": {
  "note": "false in general: C12_negation (method calls recorded before statements), C12_negation_gap; proved under the order/gap hypotheses stated"
 },
 "C19": {
  "note": "false for paths containing a colon: each such span is an error when read back (C19_colon, C19_negation). C19_exact: a displayed span is never read back as another one, and is read back exactly if its path contains no colon, the numbers fit into 64 bits and the file can be read"
 },
 "C36": {
  "note": "proved for statements and method calls of tests and of functions they call directly; for functions called through others it needs that no walkable function is called outside a test (C36_negation)"
 },
 "C37": {
  "note": "candidates are never ignored calls (proved); that arguments of ignored calls are skipped is false for the last or an unremovable statement (C37_negation)"
 },
 "C38": {
  "note": "attribution is sound (C38_only) and complete for direct callers; indirect callers can be lost (C38_negation)"
 },
 "C65": {
  "note": "right for None and Method (C65_partial), false for Function (C65_negation): C65_exact says what holds in all cases, namely that the rest of the path must not be an ignored method either"
 },
 "C66": {
  "note": "false for nested tests, tests in walkable functions and Foundry's f().x; (C66_negation_*); proved otherwise"
 },
 "C48": {
  "status": "partial",
  "note": "all proved except \"carries on\": for an instrumented statement necessist panics (Demo.C48_negation, C48_not_reported_partial)"
 },
 "C53": {
  "note": "right for tree-sitter (Go, PHP) except at the end of file, where the conversion panics (C53_point_eof); false for Foundry exactly if there are non-ASCII characters before the position on its line (C53_foundry_only, C53_negation_foundry)"
 },
 "C55": {
  "note": "the event of `emit I.E(x);` is nevertheless taken for a method call (Demo.C55_emit_event); the text of the span assumes ASCII lines (see C53)"
 },
 "C56": {
  "note": "The name by which guards refer to the package os is the import's, for `import NAME \"os\"` and `import \"os\"` (C56_named, C56_unnamed) and for grouped imports whose name is one character or '.' or otherwise cannot be shortened (C56_grouped_partial); C56_negation: a longer alias in a parenthesised import is captured as its shortest suffix that is an identifier. C56_inserted: where the import goes otherwise. Missing (false of the code): longer aliases in groups; comments and strings that look like imports or package clauses."
 },
 "C67": {
  "note": "C67_partial covers library, main program, src/bin/CRATE/main.rs and tests/CRATE/main.rs with all their modules, and single-file crates' roots. False of the code, hence missing: modules called lib or main with a file of their own (C67_negation_main), modules of single-file crates below tests and src/bin (C67_negation_tests, Demo.C67_negation_confused)."
 },
 "C59": {
  "note": "C59_transparent and C59_rust need computations that give the same answer each time; C59_answer, C59_computed and C59_contents hold for any history"
 },
 "C68": {
  "note": "packages whose library is of another kind (e.g. cdylib, proc-macro) get no flag for it, as C68_unit says"
 },
 "C60": {
  "note": "right for remotes USER@HOST:PATH and for web remotes without user names (C60_scp_partial, C60_web); false of the code, hence missing: ssh:// remotes (Demo.C60_negation_ssh) and https remotes with user and port (Demo.C60_negation_https)"
 },
 "C61": {
  "note": "Whole-program statements about Main.main. A candidate's text is printed as it is (carriage returns dropped), so one message may span several lines. C61_candidates_fails_only: the dump panics only if a candidate's text is not in its file. C61_same_as_run: the candidates listed are the ones a run of the same command without --dump-candidates deals with, in the same order."
 },
 "C63": {
  "note": "Exit code 101 after a panic and no code if the program never ends are kept apart (C63_codes). clap's own usage errors (exit code 2) are not modelled."
 },
 "C69": {
  "note": "False as stated (Demo.C69_negation): n_spans counts pairs of a candidate and a test. C69_total_partial: the number is at least that of the candidates, and equal exactly if each belongs to one test."
 },
 "C62": {
  "note": "Run loop with the Anchor backend: every call sees the right Anchor.toml (C62_only_while_testing), restored at the end (C62_restored), drop points justified by ownership (C62_owner); the patch and the accepted scripts (C62_patch, C62_accepted); Vitest output (C62_json). TOML parsing/printing are parameters. For the program: C62_program_restored, C62_program_only_while_testing (for the framework that is chosen; example in Props/ProgramDemo)."
 },
 "C70": {
  "note": "For trees as tree-sitter's grammar describes them (GoFile: statements have children, expression statements contain only their expression besides tokens and comments, \u2026). Without that: C70_negation_leaf, a test containing a statement without children (fallthrough) makes Necessist panic. Concrete file and hypotheses in Props/GoVisitorDemo."
 },
 "C71": {
  "note": "For trees as tree-sitter's grammar describes them (PhpFile; calls do not occur in computed member names). Without that: C71_negation_leaf. Concrete file and hypotheses in Props/PhpVisitorDemo."
 },
 "C73": {
  "note": "The run and the whole program; the outside world is arbitrary (Waits, Spec/Exec.lean). Parsing ends too (C39_terminates, C39_parse_ends)."
 },
 "C72": {
  "note": "For files that are Regular (nodes are told apart by their spans; tests are not nested; no `await it(\u2026);`; no call in an index after the call that a statement makes) and configurations that do not single out `it`. Without that: C72_negation_await, C72_negation_nested, C72_negation_function (panics), C72_negation_overload (overload signatures hide the function). Concrete file and hypotheses in Props/TypeScriptDemo."
 },
 "C74": {
  "note": "For files that are Regular (no test function within a function; no two functions with equal bodies; operands are expressions) and a cargo that answers the same at all times, knows the file's package and lists its tests. Statements are told apart by syn's ==, which disregards spans, so what looks like the last statement is exempt. Without the hypotheses: C74_negation_nested (panic), C74_negation_merge (functions with equal bodies). Unexpected behaviour that the statements allow for: C74_negation_last, C74_negation_match, C74_negation_method. Concrete file and hypotheses in Props/RustVisitorDemo."
 },
 "C75": {
  "note": "Rust: for files whose flags were determined during parsing (C68); Go: for files with a path. What the tools do with their arguments is specified in Spec/Pattern.lean and not checked against the tools. Concrete runs of all seven frameworks in Props/CommandsDemo. For Anchor, a command comes with the test script that is in Anchor.toml while it is executed; that the file really has this script, and is restored, is C62. The trace tells for each step which candidate and test it is for; that those are candidates of the file is C01 and others."
 },
 "C76": {
  "note": "For files that are Regular: statements and functions are told apart (solang's == includes the locations), also from the statement that replaces those after a cheatcode, and no statement is `f().x;` (which panics: field_of_call, C66_negation_field). What expressions are looked at is the specification's Evaluated/Clear: only calls, their callees and arguments; only_calls shows what this leaves out. Concrete file and hypotheses in Props/FoundryDemo."
 },
 "C77": {
  "note": "What .gitignore and the like say is a parameter (rule). Paths are sequences of names (UTF-8). Concrete directory trees for all frameworks, and the hypotheses, in Props/Walk (Demo)."
 },
 "C78": {
  "note": "The README's lists are transcribed in Spec/Builtins.lean. Concrete configuration in Props/Builtins (Builtins.Demo)."
 },
 "C79": {
  "note": "The four front ends' theorems (C70, C71, C72, C74, C76) joined with C26, C32-C34, C41, C42, C77, C78 and C10. What is left out, file by file, is the specification's Usual: the regularity conditions of C70-C76; and what has to be tried (Due) is what those properties' completeness parts say. The parsers (Parsers) are arbitrary, but have to locate what they find in the file that they are given (Locates), which discharges the hypothesis SpansInFile of the other theorems about the program (spansInFile). Concrete Go project, meeting all hypotheses, in Props/SourcesDemo."
 },
 "C80": {
  "note": "For all seven frameworks. The hypotheses about the implementations (Locates, Implements, Executes) say that they are the modelled ones. Concrete Go project, meeting all hypotheses, in Props/MeaningDemo."
 },
 "C81": {
  "note": "Makes (Spec/MainWarnings) says which calls are due, Results (Spec/Warnings) what is printed for them. The hypothesis Sound says that a framework's answers take account of the warnings that it gives while tests are run; C81_sound proves it of the seven frameworks as modelled; which those warnings are is C86. Texts of errors and the path of the database are left out of the messages. When the warning about changed sources is due is C82. Concrete run with all sorts of warnings, meeting the hypotheses, in Props/MainWarningsDemo."
 },
 "C82": {
  "note": "What is proved: the warning is printed only if the entries do not fit the candidates in the order in which they are tried (C82_fits, C82_entry), and always then if the run is completed (C82_noticed); and the words missing and unexpected are right if candidates come in ascending order and no entry is there twice (C82_in_order_partial). What is missing, because the code does not have it: that nothing is said if nothing has changed (C82_negation: statements are tried before method calls, but entries are read in the order of their spans), and that something is said if the last candidates are gone (C82_negation_removed). Examples in Props/FilesChanged."
 },
 "C83": {
  "note": "What is missing, because the code does not have it: in Rust, functions are compared by their bodies, and a function with several definitions whose first definition has the same body as a function that was gone into before is not named (C83_negation). The completeness theorems assume OneName, which C83_one_name proves for TypeScript, Foundry, Go (and Rust if bodies differ). Examples in Props/AmbiguousFw."
 },
 "C84": {
  "note": "NoticesFor (Spec/Notices) is the specification. That the dry runs are those of files with candidates that are yet to be tested is C10 and C15. Examples in Props/Notices."
 },
 "C86": {
  "note": "Reports (Spec/Reported) says what there is to report about a step of C75. Audible: neither allowed nor denied, and no --quiet. For runs that succeed; if the run does not succeed nothing is claimed about the warnings of the frameworks beyond C81. Examples with a garbled, unseen test and a test missing in the dry run in Props/ReportedDemo."
 },
 "C87": {
  "note": "CommandLine (Spec/Cli) is the specification. clap 4.6 is modelled (Model/Cli) from its documentation and source; arguments are text. Texts of help and usage messages are not modelled. Hypotheses of C87_expressible: each path is the meaning of some non-empty text, and a timeout fits into 64 bits. Examples in Props/Cli."
 },
 "C88": {
  "note": "Joins C87 (the command line) with C75, which is stated for the program in C75_program. Installs (Spec/Arguments) are the commands that install dependencies. Given that the frameworks are those of C75 in the given project, with these arguments. Example in Props/ArgumentsDemo."
 },
 "C89": {
  "note": "Right (Spec/Limit) is the statement about everything that is executed, with the soft limit each time. C89_model: perform_exec with the limit (Limit.performExec) is the perform_exec of the run loop with `limited` around the backend, so all theorems about runs apply to it as well. Findings: the limit may be greater than the one the user had set (Props/LimitDemo); it is not put back when a test cannot be started or waited for; there is a panic without `ps`. For the program: C89_program, C89_program_restored (example in Props/ProgramDemo)."
 }
}