{
 "claims": [
  {
   "property": "C01",
   "status": "proved",
   "theorems": [
    "Necessist.Main.C01_program",
    "Necessist.Run.C01_restored"
   ],
   "note": ""
  },
  {
   "property": "C02",
   "status": "proved",
   "theorems": [
    "Necessist.Main.C02_program",
    "Necessist.Run.C02_one_removal",
    "Necessist.Run.C02_told_the_id",
    "Necessist.Run.C02_dry_run_on_original"
   ],
   "note": ""
  },
  {
   "property": "C03",
   "status": "proved",
   "theorems": [
    "Necessist.Main.C03_program",
    "Necessist.Run.C03_at_most_one_modified",
    "Necessist.Run.C03_the_one_being_processed"
   ],
   "note": ""
  },
  {
   "property": "C04",
   "status": "proved",
   "theorems": [
    "Necessist.C04_remove_exact",
    "Necessist.C04_reported_text_is_removed_text",
    "Necessist.C04_location_unique"
   ],
   "note": ""
  },
  {
   "property": "C05",
   "status": "proved",
   "theorems": [
    "Necessist.C05_only_insertions",
    "Necessist.C05_succeeds",
    "Necessist.C05_wraps_each_statement",
    "Necessist.C05_wraps_with_preamble",
    "Necessist.C05_marks_in_span_order",
    "Necessist.C05_shared_end_not_nested"
   ],
   "note": ""
  },
  {
   "property": "C06",
   "status": "partial",
   "theorems": [
    "Necessist.Guard.C06_instrumented_equals_removed_partial",
    "Necessist.Guard.C06_other_value_is_original_partial",
    "Necessist.Guard.C06_collision_removes_all",
    "Necessist.Guard.C06_negation_dangling_else"
   ],
   "note": "false for unbraced branches (C06_negation: dangling else); proved for braced code"
  },
  {
   "property": "C07",
   "status": "proved",
   "theorems": [
    "Necessist.Main.C07_program",
    "Necessist.Run.C07_verdicts",
    "Necessist.Run.C07_passed_iff"
   ],
   "note": ""
  },
  {
   "property": "C08",
   "status": "proved",
   "theorems": [
    "Necessist.Run.C08_classification",
    "Necessist.Run.C08_hangs_only_without_timeout",
    "Necessist.Run.C08_in_a_run",
    "Necessist.Run.C08_results",
    "Necessist.Main.C08_program"
   ],
   "note": ""
  },
  {
   "property": "C09",
   "status": "proved",
   "theorems": [
    "Necessist.Run.C09_undetermined_not_recorded"
   ],
   "note": ""
  },
  {
   "property": "C10",
   "status": "proved",
   "theorems": [
    "Necessist.Main.C10_program_nothing_else",
    "Necessist.Main.C10_program",
    "Necessist.Run.C10_nothing_else",
    "Necessist.Run.C10_accounts",
    "Necessist.Run.C10_exactly_once"
   ],
   "note": ""
  },
  {
   "property": "C11",
   "status": "proved",
   "theorems": [
    "Necessist.Main.C11_program",
    "Necessist.Run.C11_passed_over_only_if_recorded",
    "Necessist.Run.C11_resume_loses_nothing"
   ],
   "note": ""
  },
  {
   "property": "C12",
   "status": "partial",
   "theorems": [
    "Necessist.Main.C12_program_no_repeat_partial",
    "Necessist.Run.C12_no_repeat_partial",
    "Necessist.Run.C12_resumable_partial",
    "Necessist.Run.C12_negation",
    "Necessist.Run.C12_negation_gap"
   ],
   "note": "false in general: C12_negation (method calls recorded before statements), C12_negation_gap; proved under the order/gap hypotheses stated"
  },
  {
   "property": "C13",
   "status": "proved",
   "theorems": [
    "Necessist.Main.C13_program",
    "Necessist.Main.C13_program_never_wrong",
    "Necessist.Run.C13_never_wrong",
    "Necessist.Run.C13_completed",
    "Necessist.Run.C13_same_database"
   ],
   "note": ""
  },
  {
   "property": "C14",
   "status": "proved",
   "theorems": [
    "Necessist.Run.C14_refuses",
    "Necessist.Run.C14_dump_unchanged",
    "Necessist.Run.C14_flags_exclusive",
    "Necessist.Run.C14_keeps_rows",
    "Necessist.Run.C14_no_sqlite",
    "Necessist.Run.C14_reset_starts_afresh",
    "Necessist.Run.C14_reset_fails",
    "Necessist.Run.C14_absent",
    "Necessist.Run.C14_created",
    "Necessist.Run.C14_empty_is_stuck",
    "Necessist.Main.C14_program_dump",
    "Necessist.Main.C14_program"
   ],
   "note": ""
  },
  {
   "property": "C15",
   "status": "proved",
   "theorems": [
    "Necessist.Main.C15_program",
    "Necessist.Run.C15_skipped",
    "Necessist.Run.C15_untouched"
   ],
   "note": ""
  },
  {
   "property": "C16",
   "status": "proved",
   "theorems": [
    "Necessist.Run.C16_stops",
    "Necessist.Run.C16_checked_first",
    "Necessist.Run.C16_success",
    "Necessist.Main.C16_program"
   ],
   "note": ""
  },
  {
   "property": "C17",
   "status": "proved",
   "theorems": [
    "Necessist.Run.C17_dump",
    "Necessist.Main.C17_program_dump",
    "Necessist.Main.C17_program",
    "Necessist.Run.C17_printed"
   ],
   "note": ""
  },
  {
   "property": "C18",
   "status": "proved",
   "theorems": [
    "Necessist.Main.C18_program",
    "Necessist.Run.C18_progress"
   ],
   "note": ""
  },
  {
   "property": "C19",
   "status": "partial",
   "theorems": [
    "Necessist.C19_display_parse_partial",
    "Necessist.C19_negation",
    "Necessist.C19_column_zero_panics",
    "Necessist.C19_parse_sound",
    "Necessist.C19_colon",
    "Necessist.C19_exact"
   ],
   "note": "false for paths containing a colon: each such span is an error when read back (C19_colon, C19_negation). C19_exact: a displayed span is never read back as another one, and is read back exactly if its path contains no colon, the numbers fit into 64 bits and the file can be read"
  },
  {
   "property": "C20",
   "status": "proved",
   "theorems": [
    "Necessist.C20_display_injective"
   ],
   "note": ""
  },
  {
   "property": "C21",
   "status": "proved",
   "theorems": [
    "Necessist.C21_order_lexicographic",
    "Necessist.C21_total_order",
    "Necessist.C21_positions"
   ],
   "note": ""
  },
  {
   "property": "C22",
   "status": "proved",
   "theorems": [
    "Necessist.C22_outcome_roundtrip",
    "Necessist.C22_outcome_rejects"
   ],
   "note": ""
  },
  {
   "property": "C23",
   "status": "proved",
   "theorems": [
    "Necessist.C23_pattern_matches",
    "Necessist.C23_literal"
   ],
   "note": ""
  },
  {
   "property": "C24",
   "status": "proved",
   "theorems": [
    "Necessist.C24_method_pattern_matches",
    "Necessist.C24_receiver",
    "Necessist.Visit.C24_path"
   ],
   "note": ""
  },
  {
   "property": "C25",
   "status": "proved",
   "theorems": [
    "Necessist.C25_accepted_iff",
    "Necessist.C25_error_names_culprit"
   ],
   "note": ""
  },
  {
   "property": "C26",
   "status": "proved",
   "theorems": [
    "Necessist.C26_effective",
    "Necessist.C26_denied",
    "Necessist.C26_never_panics",
    "Necessist.C26_unsupported_warned",
    "Necessist.C26_merge_refused_iff",
    "Necessist.C26_merged",
    "Necessist.C26_negation_merge_forgets"
   ],
   "note": ""
  },
  {
   "property": "C27",
   "status": "proved",
   "theorems": [
    "Necessist.C27_absent",
    "Necessist.C27_unknown_keys_refused",
    "Necessist.C27_settings",
    "Necessist.C27_round_trip",
    "Necessist.C27_default_config",
    "Necessist.Main.C27_program_default",
    "Necessist.Main.C27_program"
   ],
   "note": ""
  },
  {
   "property": "C28",
   "status": "proved",
   "theorems": [
    "Necessist.Main.C28_program",
    "Necessist.C28_denied_always_aborts",
    "Necessist.C28_history_independent"
   ],
   "note": ""
  },
  {
   "property": "C29",
   "status": "proved",
   "theorems": [
    "Necessist.C29_prints_iff"
   ],
   "note": ""
  },
  {
   "property": "C30",
   "status": "proved",
   "theorems": [
    "Necessist.Main.C30_program",
    "Necessist.C30_once_prints_at_most_once",
    "Necessist.C30_allow_hint_first_print",
    "Necessist.C30_bug_hint_first_call",
    "Necessist.C30_bug_hint_at_most_once"
   ],
   "note": ""
  },
  {
   "property": "C31",
   "status": "proved",
   "theorems": [
    "Necessist.Main.C31_program",
    "Necessist.C31_accepted_iff",
    "Necessist.C31_error_is_truthful",
    "Necessist.C31_conflict_symmetric"
   ],
   "note": ""
  },
  {
   "property": "C32",
   "status": "proved",
   "theorems": [
    "Necessist.C32_skip_syntax",
    "Necessist.C32_skip_file_syntax",
    "Necessist.C32_directive_text",
    "Necessist.C32_not_both",
    "Necessist.C32_warning_location"
   ],
   "note": ""
  },
  {
   "property": "C33",
   "status": "proved",
   "theorems": [
    "Necessist.C33_skip"
   ],
   "note": ""
  },
  {
   "property": "C34",
   "status": "proved",
   "theorems": [
    "Necessist.C34_skip_file",
    "Necessist.C34_warnings"
   ],
   "note": ""
  },
  {
   "property": "C35",
   "status": "proved",
   "theorems": [
    "Necessist.Visit.C35_sound"
   ],
   "note": ""
  },
  {
   "property": "C36",
   "status": "proved",
   "theorems": [
    "Necessist.Visit.C36_test",
    "Necessist.Visit.C36_test_methods",
    "Necessist.Visit.C36_function",
    "Necessist.Visit.C36_function_methods",
    "Necessist.Visit.C36_walked",
    "Necessist.Visit.C36_reached",
    "Necessist.Visit.C36_negation"
   ],
   "note": "proved for statements and method calls of tests and of functions they call directly; for functions called through others it needs that no walkable function is called outside a test (C36_negation)"
  },
  {
   "property": "C37",
   "status": "partial",
   "theorems": [
    "Necessist.Visit.C37_statements",
    "Necessist.Visit.C37_methods",
    "Necessist.Visit.C37_arguments_partial",
    "Necessist.Visit.C37_negation"
   ],
   "note": "candidates are never ignored calls (proved); that arguments of ignored calls are skipped is false for the last or an unremovable statement (C37_negation)"
  },
  {
   "property": "C38",
   "status": "partial",
   "theorems": [
    "Necessist.Visit.C38_only",
    "Necessist.Visit.C38_statements",
    "Necessist.Visit.C38_methods",
    "Necessist.Visit.C38_tests_sound",
    "Necessist.Visit.C38_tests_complete",
    "Necessist.Visit.C38_direct_partial",
    "Necessist.Visit.C38_negation"
   ],
   "note": "attribution is sound (C38_only) and complete for direct callers; indirect callers can be lost (C38_negation)"
  },
  {
   "property": "C39",
   "status": "proved",
   "theorems": [
    "Necessist.Main.C39_program",
    "Necessist.Parse.C39_parse_ends",
    "Necessist.Visit.C39_once",
    "Necessist.Visit.C39_terminates"
   ],
   "note": ""
  },
  {
   "property": "C40",
   "status": "proved",
   "theorems": [
    "Necessist.Visit.C40_leaves",
    "Necessist.Visit.C40_statements",
    "Necessist.Visit.C40_no_inner"
   ],
   "note": ""
  },
  {
   "property": "C41",
   "status": "proved",
   "theorems": [
    "Necessist.Parse.C41_union",
    "Necessist.Parse.C41_files",
    "Necessist.Parse.C41_sorted",
    "Necessist.Parse.C41_order_irrelevant",
    "Necessist.Parse.C41_permute_repeat",
    "Necessist.Parse.C41_run_input"
   ],
   "note": ""
  },
  {
   "property": "C42",
   "status": "proved",
   "theorems": [
    "Necessist.Framework.C42_auto",
    "Necessist.Framework.C42_auto_iff",
    "Necessist.Framework.C42_check_fails",
    "Necessist.Framework.C42_explicit",
    "Necessist.Framework.C42_identifier",
    "Necessist.Framework.C42_files",
    "Necessist.Main.C42_program"
   ],
   "note": ""
  },
  {
   "property": "C43",
   "status": "proved",
   "theorems": [
    "Necessist.Framework.C43_resolves_case",
    "Necessist.Framework.C43_resolves",
    "Necessist.Framework.C43_listed",
    "Necessist.Framework.C43_round_trip",
    "Necessist.Framework.C43_all_listed",
    "Necessist.Framework.C43_frameworks",
    "Necessist.Framework.C43_framework_names"
   ],
   "note": ""
  },
  {
   "property": "C44",
   "status": "proved",
   "theorems": [
    "Necessist.Main.C44_program",
    "Necessist.Parse.C44_accepted",
    "Necessist.Parse.C44_refused",
    "Necessist.Parse.C44_only_under_root"
   ],
   "note": ""
  },
  {
   "property": "C45",
   "status": "proved",
   "theorems": [
    "Necessist.Lock.C45_exclusive",
    "Necessist.Lock.C45_not_interleaved",
    "Necessist.Lock.C45_refused",
    "Necessist.Lock.C45_fails_immediately",
    "Necessist.Lock.C45_refused_does_nothing",
    "Necessist.Lock.C45_released",
    "Necessist.Main.C45_program"
   ],
   "note": ""
  },
  {
   "property": "C46",
   "status": "proved",
   "theorems": [
    "Necessist.Kill.C46_killed",
    "Necessist.Kill.C46_always"
   ],
   "note": ""
  },
  {
   "property": "C47",
   "status": "proved",
   "theorems": [
    "Necessist.Exec.C47_decision",
    "Necessist.Exec.C47_invalid_reported",
    "Necessist.Exec.C47_not_run_reported",
    "Necessist.Exec.C47_decided",
    "Necessist.Exec.C47_no_outcome",
    "Necessist.Exec.C47_frameworks"
   ],
   "note": ""
  },
  {
   "property": "C48",
   "status": "partial",
   "theorems": [
    "Necessist.ItMessage.C48_executed_iff",
    "Necessist.ItMessage.C48_warned_once",
    "Necessist.ItMessage.C48_warned",
    "Necessist.ItMessage.C48_in_map",
    "Necessist.ItMessage.C48_warning",
    "Necessist.ItMessage.C48_run",
    "Necessist.ItMessage.C48_not_reported_partial",
    "Necessist.ItMessage.C48_mocha_gas",
    "Necessist.ItMessage.C48_mocha_time",
    "Necessist.ItMessage.C48_mocha_plain",
    "Necessist.ItMessage.C48_mocha",
    "Necessist.ItMessage.C48_dry_run",
    "Necessist.ItMessage.Demo.C48_negation"
   ],
   "note": "all proved except \"carries on\": for an instrumented statement necessist panics (Demo.C48_negation, C48_not_reported_partial)"
  },
  {
   "property": "C49",
   "status": "proved",
   "theorems": [
    "Necessist.Skill.C49_check",
    "Necessist.Skill.C49_reported_iff",
    "Necessist.Skill.C49_printed",
    "Necessist.Skill.C49_warning",
    "Necessist.Skill.C49_find"
   ],
   "note": ""
  },
  {
   "property": "C50",
   "status": "proved",
   "theorems": [
    "Necessist.Main.C50_program",
    "Necessist.Skill.C50_no_write",
    "Necessist.Skill.C50_changes",
    "Necessist.Skill.C50_untouched",
    "Necessist.Skill.C50_find_creates_nothing",
    "Necessist.Skill.C50_idempotent",
    "Necessist.Skill.C50_find"
   ],
   "note": ""
  },
  {
   "property": "C51",
   "status": "proved",
   "theorems": [
    "Necessist.Skill.C51_header",
    "Necessist.Skill.C51_unique",
    "Necessist.Skill.C51_refused"
   ],
   "note": ""
  },
  {
   "property": "C52",
   "status": "proved",
   "theorems": [
    "Necessist.Cursor.C52_walk",
    "Necessist.Cursor.C52_next",
    "Necessist.Cursor.C52_visited",
    "Necessist.Cursor.C52_leaf"
   ],
   "note": ""
  },
  {
   "property": "C53",
   "status": "partial",
   "theorems": [
    "Necessist.Columns.C53_point",
    "Necessist.Columns.C53_point_eof",
    "Necessist.Columns.C53_foundry_partial",
    "Necessist.Columns.C53_foundry_only",
    "Necessist.Columns.C53_negation_foundry"
   ],
   "note": "right for tree-sitter (Go, PHP) except at the end of file, where the conversion panics (C53_point_eof); false for Foundry exactly if there are non-ASCII characters before the position on its line (C53_foundry_only, C53_negation_foundry)"
  },
  {
   "property": "C54",
   "status": "proved",
   "theorems": [
    "Necessist.C54_trim_start"
   ],
   "note": ""
  },
  {
   "property": "C55",
   "status": "proved",
   "theorems": [
    "Necessist.Foundry.C55_statements",
    "Necessist.Foundry.C55_methods",
    "Necessist.Foundry.C55_semicolon",
    "Necessist.Foundry.C55_no_semicolon",
    "Necessist.Foundry.C55_text",
    "Necessist.Foundry.Demo.C55_emit_event"
   ],
   "note": "the event of `emit I.E(x);` is nevertheless taken for a method call (Demo.C55_emit_event); the text of the span assumes ASCII lines (see C53)"
  },
  {
   "property": "C56",
   "status": "partial",
   "theorems": [
    "Necessist.Go.C56_named",
    "Necessist.Go.C56_unnamed",
    "Necessist.Go.C56_grouped",
    "Necessist.Go.C56_grouped_partial",
    "Necessist.Go.C56_negation",
    "Necessist.Go.C56_grouped_unnamed",
    "Necessist.Go.C56_none",
    "Necessist.Go.C56_nothing",
    "Necessist.Go.C56_imported",
    "Necessist.Go.C56_inserted",
    "Necessist.Go.C56_guard",
    "Necessist.Go.Demo.C56_negation_example",
    "Necessist.Go.Demo.C56_negation_comment",
    "Necessist.Go.Demo.C56_negation_package"
   ],
   "note": "The name by which guards refer to the package os is the import's, for `import NAME \"os\"` and `import \"os\"` (C56_named, C56_unnamed) and for grouped imports whose name is one character or '.' or otherwise cannot be shortened (C56_grouped_partial); C56_negation: a longer alias in a parenthesised import is captured as its shortest suffix that is an identifier. C56_inserted: where the import goes otherwise. Missing (false of the code): longer aliases in groups; comments and strings that look like imports or package clauses."
  },
  {
   "property": "C57",
   "status": "proved",
   "theorems": [
    "Necessist.Rust.C57_tests",
    "Necessist.Rust.C57_unknown",
    "Necessist.Rust.C57_fails",
    "Necessist.Rust.C57_no_panic",
    "Necessist.Rust.C57_relative",
    "Necessist.Rust.C57_fs",
    "Necessist.Rust.C57_names"
   ],
   "note": ""
  },
  {
   "property": "C58",
   "status": "proved",
   "theorems": [
    "Necessist.Rust.C58_nearest",
    "Necessist.Rust.C58_exists"
   ],
   "note": ""
  },
  {
   "property": "C59",
   "status": "proved",
   "theorems": [
    "Necessist.Cache.C59_answer",
    "Necessist.Cache.C59_computed",
    "Necessist.Cache.C59_transparent",
    "Necessist.Cache.C59_contents",
    "Necessist.Cache.C59_one_root",
    "Necessist.Rust.C59_rust"
   ],
   "note": "C59_transparent and C59_rust need computations that give the same answer each time; C59_answer, C59_computed and C59_contents hold for any history"
  },
  {
   "property": "C60",
   "status": "partial",
   "theorems": [
    "Necessist.Url.C60_below",
    "Necessist.Url.C60_scp_partial",
    "Necessist.Url.C60_web",
    "Necessist.Url.C60_determines",
    "Necessist.Url.C60_no_remote",
    "Necessist.Url.C60_remote",
    "Necessist.Url.Demo.C60_negation_ssh",
    "Necessist.Url.Demo.C60_negation_https",
    "Necessist.Url.Demo.C60_panics"
   ],
   "note": "right for remotes USER@HOST:PATH and for web remotes without user names (C60_scp_partial, C60_web); false of the code, hence missing: ssh:// remotes (Demo.C60_negation_ssh) and https remotes with user and port (Demo.C60_negation_https)"
  },
  {
   "property": "C61",
   "status": "proved",
   "theorems": [
    "Necessist.Main.C61_no_effects",
    "Necessist.Main.C61_candidates",
    "Necessist.Main.C61_candidates_fails_only",
    "Necessist.Main.C61_counts",
    "Necessist.Main.C61_same_as_run"
   ],
   "note": "Whole-program statements about Main.main. A candidate's text is printed as it is (carriage returns dropped), so one message may span several lines. C61_candidates_fails_only: the dump panics only if a candidate's text is not in its file. C61_same_as_run: the candidates listed are the ones a run of the same command without --dump-candidates deals with, in the same order."
  },
  {
   "property": "C62",
   "status": "proved",
   "theorems": [
    "Necessist.Anchor.C62_accepted",
    "Necessist.Anchor.C62_patch",
    "Necessist.Anchor.C62_json",
    "Necessist.Anchor.C62_program_restored",
    "Necessist.Anchor.C62_program_only_while_testing",
    "Necessist.Anchor.C62_restored",
    "Necessist.Anchor.C62_only_while_testing",
    "Necessist.Anchor.C62_owner"
   ],
   "note": "Run loop with the Anchor backend: every call sees the right Anchor.toml (C62_only_while_testing), restored at the end (C62_restored), drop points justified by ownership (C62_owner); the patch and the accepted scripts (C62_patch, C62_accepted); Vitest output (C62_json). TOML parsing/printing are parameters. For the program: C62_program_restored, C62_program_only_while_testing (for the framework that is chosen; example in Props/ProgramDemo)."
  },
  {
   "property": "C63",
   "status": "proved",
   "theorems": [
    "Necessist.Main.C63_zero",
    "Necessist.Main.C63_codes",
    "Necessist.Main.C63_one_iff"
   ],
   "note": "Exit code 101 after a panic and no code if the program never ends are kept apart (C63_codes). clap's own usage errors (exit code 2) are not modelled."
  },
  {
   "property": "C64",
   "status": "proved",
   "theorems": [
    "Necessist.Main.C64_program",
    "Necessist.Main.C64_program_reported",
    "Necessist.Parse.C64_ok_iff",
    "Necessist.Parse.C64_reported",
    "Necessist.Parse.C64_denied",
    "Necessist.Parse.C64_others_unaffected"
   ],
   "note": ""
  },
  {
   "property": "C65",
   "status": "partial",
   "theorems": [
    "Necessist.Visit.C65_exact",
    "Necessist.Visit.C65_partial",
    "Necessist.Visit.C65_negation"
   ],
   "note": "right for None and Method (C65_partial), false for Function (C65_negation): C65_exact says what holds in all cases, namely that the rest of the path must not be an ignored method either"
  },
  {
   "property": "C66",
   "status": "partial",
   "theorems": [
    "Necessist.Visit.C66_no_panic_partial",
    "Necessist.Visit.C66_done_partial",
    "Necessist.Visit.C66_no_panic_functions_partial",
    "Necessist.Visit.C66_negation_nested",
    "Necessist.Visit.C66_negation_walkable",
    "Necessist.Visit.C66_negation_field"
   ],
   "note": "false for nested tests, tests in walkable functions and Foundry's f().x; (C66_negation_*); proved otherwise"
  },
  {
   "property": "C67",
   "status": "partial",
   "theorems": [
    "Necessist.Rust.C67_partial",
    "Necessist.Rust.C67_negation_main",
    "Necessist.Rust.C67_negation_tests",
    "Necessist.Rust.Demo.C67_negation_confused"
   ],
   "note": "C67_partial covers library, main program, src/bin/CRATE/main.rs and tests/CRATE/main.rs with all their modules, and single-file crates' roots. False of the code, hence missing: modules called lib or main with a file of their own (C67_negation_main), modules of single-file crates below tests and src/bin (C67_negation_tests, Demo.C67_negation_confused)."
  },
  {
   "property": "C68",
   "status": "proved",
   "theorems": [
    "Necessist.Rust.C68_test_target",
    "Necessist.Rust.C68_unit",
    "Necessist.Rust.C68_commands",
    "Necessist.Rust.C68_later"
   ],
   "note": "packages whose library is of another kind (e.g. cdylib, proc-macro) get no flag for it, as C68_unit says"
  },
  {
   "property": "C69",
   "status": "partial",
   "theorems": [
    "Necessist.Main.C69_total_partial",
    "Necessist.Main.Demo.C69_negation"
   ],
   "note": "False as stated (Demo.C69_negation): n_spans counts pairs of a candidate and a test. C69_total_partial: the number is at least that of the candidates, and equal exactly if each belongs to one test."
  },
  {
   "property": "C70",
   "status": "proved",
   "theorems": [
    "Necessist.TS.Go.C70_no_panic",
    "Necessist.TS.Go.C70_tests",
    "Necessist.TS.Go.C70_statements",
    "Necessist.TS.Go.C70_methods",
    "Necessist.TS.Go.C70_ends",
    "Necessist.TS.Go.C70_complete",
    "Necessist.TS.Go.C70_complete_functions",
    "Necessist.TS.Go.C70_complete_methods",
    "Necessist.TS.Go.C70_complete_functions_methods",
    "Necessist.TS.Go.Demo.C70_negation_leaf"
   ],
   "note": "For trees as tree-sitter's grammar describes them (GoFile: statements have children, expression statements contain only their expression besides tokens and comments, …). Without that: C70_negation_leaf, a test containing a statement without children (fallthrough) makes Necessist panic. Concrete file and hypotheses in Props/GoVisitorDemo."
  },
  {
   "property": "C71",
   "status": "proved",
   "theorems": [
    "Necessist.TS.Php.C71_no_panic",
    "Necessist.TS.Php.C71_ends",
    "Necessist.TS.Php.C71_tests",
    "Necessist.TS.Php.C71_statements",
    "Necessist.TS.Php.C71_methods",
    "Necessist.TS.Php.C71_complete",
    "Necessist.TS.Php.C71_complete_methods",
    "Necessist.TS.Php.Demo.C71_negation_leaf"
   ],
   "note": "For trees as tree-sitter's grammar describes them (PhpFile; calls do not occur in computed member names). Without that: C71_negation_leaf. Concrete file and hypotheses in Props/PhpVisitorDemo."
  },
  {
   "property": "C72",
   "status": "proved",
   "theorems": [
    "Necessist.Js.C72_tests",
    "Necessist.Js.C72_ends",
    "Necessist.Js.C72_statements",
    "Necessist.Js.C72_methods",
    "Necessist.Js.C72_complete",
    "Necessist.Js.C72_complete_functions",
    "Necessist.Js.C72_complete_methods",
    "Necessist.Js.C72_complete_functions_methods",
    "Necessist.Js.Demo.C72_negation_await",
    "Necessist.Js.Demo.C72_negation_nested",
    "Necessist.Js.Demo.C72_negation_function",
    "Necessist.Js.Demo.C72_negation_overload"
   ],
   "note": "For files that are Regular (nodes are told apart by their spans; tests are not nested; no `await it(…);`; no call in an index after the call that a statement makes) and configurations that do not single out `it`. Without that: C72_negation_await, C72_negation_nested, C72_negation_function (panics), C72_negation_overload (overload signatures hide the function). Concrete file and hypotheses in Props/TypeScriptDemo."
  },
  {
   "property": "C73",
   "status": "proved",
   "theorems": [
    "Necessist.Run.C73_run",
    "Necessist.Run.C73_timeout",
    "Necessist.Main.C73_program"
   ],
   "note": "The run and the whole program; the outside world is arbitrary (Waits, Spec/Exec.lean). Parsing ends too (C39_terminates, C39_parse_ends)."
  },
  {
   "property": "C74",
   "status": "proved",
   "theorems": [
    "Necessist.Rs.C74_tests",
    "Necessist.Rs.C74_ends",
    "Necessist.Rs.C74_statements",
    "Necessist.Rs.C74_methods",
    "Necessist.Rs.C74_complete",
    "Necessist.Rs.C74_complete_functions",
    "Necessist.Rs.C74_complete_methods",
    "Necessist.Rs.C74_complete_functions_methods",
    "Necessist.Rs.Demo.C74_negation_nested",
    "Necessist.Rs.Demo.C74_negation_merge",
    "Necessist.Rs.Demo.C74_negation_last",
    "Necessist.Rs.Demo.C74_negation_match",
    "Necessist.Rs.Demo.C74_negation_method",
    "Necessist.Rs.C74_no_package",
    "Necessist.Rs.C74_no_list"
   ],
   "note": "For files that are Regular (no test function within a function; no two functions with equal bodies; operands are expressions) and a cargo that answers the same at all times, knows the file's package and lists its tests. Statements are told apart by syn's ==, which disregards spans, so what looks like the last statement is exempt. Without the hypotheses: C74_negation_nested (panic), C74_negation_merge (functions with equal bodies). Unexpected behaviour that the statements allow for: C74_negation_last, C74_negation_match, C74_negation_method. Concrete file and hypotheses in Props/RustVisitorDemo."
  },
  {
   "property": "C75",
   "status": "proved",
   "theorems": [
    "Necessist.Results.C75_program",
    "Necessist.Cmd.C75_go",
    "Necessist.Cmd.C75_php",
    "Necessist.Cmd.C75_foundry",
    "Necessist.Cmd.C75_rust",
    "Necessist.Cmd.C75_hardhat",
    "Necessist.Cmd.C75_vitest",
    "Necessist.Cmd.C75_anchor",
    "Necessist.Cmd.C75_started",
    "Necessist.Cmd.C75_ran",
    "Necessist.Cmd.C75_passed",
    "Necessist.Cmd.C75_go_selects",
    "Necessist.Cmd.C75_go_build_selects",
    "Necessist.Cmd.C75_php_selects",
    "Necessist.Cmd.C75_foundry_selects",
    "Necessist.Cmd.C75_rust_selects",
    "Necessist.Cmd.C75_rust_selects_otherwise"
   ],
   "note": "Rust: for files whose flags were determined during parsing (C68); Go: for files with a path. What the tools do with their arguments is specified in Spec/Pattern.lean and not checked against the tools. Concrete runs of all seven frameworks in Props/CommandsDemo. For Anchor, a command comes with the test script that is in Anchor.toml while it is executed; that the file really has this script, and is restored, is C62. The trace tells for each step which candidate and test it is for; that those are candidates of the file is C01 and others."
  },
  {
   "property": "C76",
   "status": "proved",
   "theorems": [
    "Necessist.Foundry.C76_tests",
    "Necessist.Foundry.C76_done",
    "Necessist.Foundry.C76_statements",
    "Necessist.Foundry.C76_methods",
    "Necessist.Foundry.C76_complete",
    "Necessist.Foundry.C76_complete_functions",
    "Necessist.Foundry.C76_complete_methods",
    "Necessist.Foundry.C76_complete_functions_methods"
   ],
   "note": "For files that are Regular: statements and functions are told apart (solang's == includes the locations), also from the statement that replaces those after a cheatcode, and no statement is `f().x;` (which panics: field_of_call, C66_negation_field). What expressions are looked at is the specification's Evaluated/Clear: only calls, their callees and arguments; only_calls shows what this leaves out. Concrete file and hypotheses in Props/FoundryDemo."
  },
  {
   "property": "C77",
   "status": "proved",
   "theorems": [
    "Necessist.Walk.C77_files",
    "Necessist.Walk.C77_unreadable",
    "Necessist.Walk.C77_readable",
    "Necessist.Walk.C77_under_root",
    "Necessist.Walk.C77_searched",
    "Necessist.Walk.C77_program_found",
    "Necessist.Walk.C77_program",
    "Necessist.Walk.C77_program_unreadable"
   ],
   "note": "What .gitignore and the like say is a parameter (rule). Paths are sequences of names (UTF-8). Concrete directory trees for all frameworks, and the hypotheses, in Props/Walk (Demo)."
  },
  {
   "property": "C78",
   "status": "proved",
   "theorems": [
    "Necessist.C78_functions",
    "Necessist.C78_macros",
    "Necessist.C78_methods",
    "Necessist.C78_accepted",
    "Necessist.C78_unsupported"
   ],
   "note": "The README's lists are transcribed in Spec/Builtins.lean. Concrete configuration in Props/Builtins (Builtins.Demo)."
  },
  {
   "property": "C79",
   "status": "proved",
   "theorems": [
    "Necessist.Sources.C79_candidates",
    "Necessist.Sources.C79_sound",
    "Necessist.Sources.C79_complete",
    "Necessist.Sources.C79_listed"
   ],
   "note": "The four front ends' theorems (C70, C71, C72, C74, C76) joined with C26, C32-C34, C41, C42, C77, C78 and C10. What is left out, file by file, is the specification's Usual: the regularity conditions of C70-C76; and what has to be tried (Due) is what those properties' completeness parts say. The parsers (Parsers) are arbitrary, but have to locate what they find in the file that they are given (Locates), which discharges the hypothesis SpansInFile of the other theorems about the program (spansInFile). Concrete Go project, meeting all hypotheses, in Props/SourcesDemo."
  },
  {
   "property": "C80",
   "status": "proved",
   "theorems": [
    "Necessist.Results.C80_recorded",
    "Necessist.Results.C80_printed",
    "Necessist.Results.C80_complete"
   ],
   "note": "For all seven frameworks. The hypotheses about the implementations (Locates, Implements, Executes) say that they are the modelled ones. Concrete Go project, meeting all hypotheses, in Props/MeaningDemo."
  },
  {
   "property": "C81",
   "status": "proved",
   "theorems": [
    "Necessist.Main.C81_warnings",
    "Necessist.Main.C81_none",
    "Necessist.Main.C81_events",
    "Necessist.Main.C81_events_denied",
    "Necessist.Main.C81_once",
    "Necessist.Main.C81_sources",
    "Necessist.Results.C81_sound"
   ],
   "note": "Makes (Spec/MainWarnings) says which calls are due, Results (Spec/Warnings) what is printed for them. The hypothesis Sound says that a framework's answers take account of the warnings that it gives while tests are run; C81_sound proves it of the seven frameworks as modelled; which those warnings are is C86. Texts of errors and the path of the database are left out of the messages. When the warning about changed sources is due is C82. Concrete run with all sorts of warnings, meeting the hypotheses, in Props/MainWarningsDemo."
  },
  {
   "property": "C82",
   "status": "partial",
   "theorems": [
    "Necessist.Main.C82_entry",
    "Necessist.Main.C82_fits",
    "Necessist.Main.C82_noticed",
    "Necessist.Main.C82_in_order_partial",
    "Necessist.Run.C82_negation",
    "Necessist.Run.C82_negation_removed"
   ],
   "note": "What is proved: the warning is printed only if the entries do not fit the candidates in the order in which they are tried (C82_fits, C82_entry), and always then if the run is completed (C82_noticed); and the words missing and unexpected are right if candidates come in ascending order and no entry is there twice (C82_in_order_partial). What is missing, because the code does not have it: that nothing is said if nothing has changed (C82_negation: statements are tried before method calls, but entries are read in the order of their spans), and that something is said if the last candidates are gone (C82_negation_removed). Examples in Props/FilesChanged."
  },
  {
   "property": "C83",
   "status": "partial",
   "theorems": [
    "Necessist.Visit.C83_sound",
    "Necessist.Visit.C83_test_partial",
    "Necessist.Visit.C83_function_partial",
    "Necessist.Visit.C83_negation",
    "Necessist.Main.C83_program_partial",
    "Necessist.Main.C83_program_sound"
   ],
   "note": "What is missing, because the code does not have it: in Rust, functions are compared by their bodies, and a function with several definitions whose first definition has the same body as a function that was gone into before is not named (C83_negation). The completeness theorems assume OneName, which C83_one_name proves for TypeScript, Foundry, Go (and Rust if bodies differ). Examples in Props/AmbiguousFw."
  },
  {
   "property": "C84",
   "status": "proved",
   "theorems": [
    "Necessist.Main.C84_program"
   ],
   "note": "NoticesFor (Spec/Notices) is the specification. That the dry runs are those of files with candidates that are yet to be tested is C10 and C15. Examples in Props/Notices."
  },
  {
   "property": "C85",
   "status": "proved",
   "theorems": [
    "Necessist.Rs.C85_visit",
    "Necessist.Rs.C85_visit_fails",
    "Necessist.Rs.C85_visit_known",
    "Necessist.Sources.C85_program",
    "Necessist.Sources.C85_program_sound"
   ],
   "note": ""
  },
  {
   "property": "C86",
   "status": "proved",
   "theorems": [
    "Necessist.Results.C86_program",
    "Necessist.Results.C86_not_run",
    "Necessist.Results.C86_garbled",
    "Necessist.Results.C86_missed"
   ],
   "note": "Reports (Spec/Reported) says what there is to report about a step of C75. Audible: neither allowed nor denied, and no --quiet. For runs that succeed; if the run does not succeed nothing is claimed about the warnings of the frameworks beyond C81. Examples with a garbled, unseen test and a test missing in the dry run in Props/ReportedDemo."
  },
  {
   "property": "C87",
   "status": "proved",
   "theorems": [
    "Necessist.Cli.C87_reading",
    "Necessist.Cli.C87_program",
    "Necessist.Cli.C87_unambiguous",
    "Necessist.Cli.C87_passed_on",
    "Necessist.Cli.C87_order",
    "Necessist.Cli.C87_expressible",
    "Necessist.Cli.C87_names"
   ],
   "note": "CommandLine (Spec/Cli) is the specification. clap 4.6 is modelled (Model/Cli) from its documentation and source; arguments are text. Texts of help and usage messages are not modelled. Hypotheses of C87_expressible: each path is the meaning of some non-empty text, and a timeout fits into 64 bits. Examples in Props/Cli."
  },
  {
   "property": "C88",
   "status": "proved",
   "theorems": [
    "Necessist.Results.C88_program"
   ],
   "note": "Joins C87 (the command line) with C75, which is stated for the program in C75_program. Installs (Spec/Arguments) are the commands that install dependencies. Given that the frameworks are those of C75 in the given project, with these arguments. Example in Props/ArgumentsDemo."
  },
  {
   "property": "C89",
   "status": "proved",
   "theorems": [
    "Necessist.Limit.C89_model",
    "Necessist.Limit.C89_limits",
    "Necessist.Limit.C89_restored",
    "Necessist.Limit.C89_program",
    "Necessist.Limit.C89_program_restored"
   ],
   "note": "Right (Spec/Limit) is the statement about everything that is executed, with the soft limit each time. C89_model: perform_exec with the limit (Limit.performExec) is the perform_exec of the run loop with `limited` around the backend, so all theorems about runs apply to it as well. Findings: the limit may be greater than the one the user had set (Props/LimitDemo); it is not put back when a test cannot be started or waited for; there is a panic without `ps`. For the program: C89_program, C89_program_restored (example in Props/ProgramDemo)."
  },
  {
   "property": "C90",
   "status": "proved",
   "theorems": [
    "Necessist.Main.C90_program",
    "Necessist.Main.C90_frameworks"
   ],
   "note": ""
  }
 ]
}