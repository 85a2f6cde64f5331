{"claims": [
  {"property": "C01", "status": "proved", "theorems": ["Wayfinder.C01_soundness"], "note": "for every supported configuration"},
  {"property": "C02", "status": "partial", "theorems": ["Wayfinder.C02_completeness_partial", "Wayfinder.C02_follows", "Wayfinder.C02_exact", "Wayfinder.C02_config", "Wayfinder.C02_guarded", "Wayfinder.C02_completeness_false"], "note": "false in general (witness); proved for tame configurations; C02_exact: a declared route is reached exactly if no step is taken over by a sibling; C02_config: exactly which configurations are complete"},
  {"property": "C03", "status": "proved", "theorems": ["Wayfinder.C03_not_allowed"], "note": ""},
  {"property": "C04", "status": "partial", "theorems": ["Wayfinder.C04_static_partial", "Wayfinder.C04_static_false", "Wayfinder.C04_unmixed", "Wayfinder.C04_unmixed_not_found", "Wayfinder.C04_no_instance", "Wayfinder.C47_not_found", "Wayfinder.C04_config", "Wayfinder.C04_instances", "Wayfinder.C04_guarded"], "note": "exact for configurations that never mix parameters and statics; false in general (witness); C04_config, C04_instances: exactly which configurations lose no declared route (for plain ASCII texts); the condition is decidable"},
  {"property": "C05", "status": "proved", "theorems": ["Wayfinder.C05_leading_slash"], "note": ""},
  {"property": "C06", "status": "proved", "theorems": ["Wayfinder.C06_trailing_slash", "Wayfinder.C06_slash_false"], "note": "C06_slash_false: static texts with a slash, which only the API can make, are excluded for a reason"},
  {"property": "C07", "status": "proved", "theorems": ["Wayfinder.C07_parameters"], "note": ""},
  {"property": "C08", "status": "proved", "theorems": ["Wayfinder.C08_errors", "Wayfinder.C08_reported"], "note": ""},
  {"property": "C09", "status": "partial", "theorems": ["Wayfinder.C09_no_panic_partial", "Wayfinder.C09_exact", "Wayfinder.C09_config", "Wayfinder.C09_causes", "Wayfinder.C09_no_panic_false"], "note": "false in general (one-character static next to a parameter); exact causes given; C09_config: exactly which configurations never panic"},
  {"property": "C10", "status": "proved", "theorems": ["Wayfinder.C10_query_none"], "note": ""},
  {"property": "C11", "status": "partial", "theorems": ["Wayfinder.C11_delegates", "Wayfinder.C11_precedence_partial", "Wayfinder.C11_dead_statics", "Wayfinder.C11_config", "Wayfinder.C11_precedence_false"], "note": "false for a parameter next to several statics (dead branch); C11_config: exactly which configurations have the property"},
  {"property": "C12", "status": "partial", "theorems": ["Wayfinder.C12_capture_partial", "Wayfinder.C12_prefix", "Wayfinder.C12_config", "Wayfinder.C12_guarded", "Wayfinder.C12_capture_false"], "note": "false for segments that extend the static sibling; C12_config: exactly which configurations have the property; C12_guarded: also those where the type rejects the texts that extend the sibling"},
  {"property": "C13", "status": "partial", "theorems": ["Wayfinder.C13_compilable_partial", "Wayfinder.C13_prefix_rejected", "Wayfinder.C13_compilable_false"], "note": "false in general; exact condition proved"},
  {"property": "C14", "status": "partial", "theorems": ["Wayfinder.C14_renaming_partial", "Wayfinder.C14_exact", "Wayfinder.C14_config", "Wayfinder.C14_len_false", "Wayfinder.C14_start_false", "Wayfinder.C14_order_false"], "note": "false for names of the function's locals and for renamings that reorder parameter siblings (witnesses); proved otherwise; C14_exact: which injective renamings that keep the order give a supported configuration; C14_config: exactly which renamings between supported configurations leave the answers alone"},
  {"property": "C15", "status": "partial", "theorems": ["Wayfinder.C15_to_path", "Wayfinder.C15_follows_partial", "Wayfinder.C15_tame_partial", "Wayfinder.C15_back", "Wayfinder.C15_exact", "Wayfinder.C15_config", "Wayfinder.C15_guarded", "Wayfinder.C15_roundtrip_false"], "note": "false beside a parameter with several static siblings (witness); proved for tame configurations and along sibling-unambiguous routes; the direction from matches to paths is proved without restriction; C15_exact is the exact condition for single actions and values, C15_config for configurations"},
  {"property": "C16", "status": "proved", "theorems": ["Wayfinder.C16_redirects", "Wayfinder.C16_only"], "note": ""},
  {"property": "C17", "status": "proved", "theorems": ["Wayfinder.C17_first_wins"], "note": ""},
  {"property": "C18", "status": "proved", "theorems": ["Wayfinder.C18_order", "Wayfinder.C18_modules"], "note": "the matcher and the module tree"},
  {"property": "C19", "status": "partial", "theorems": ["Wayfinder.C19_mounted", "Wayfinder.C19_elsewhere", "Wayfinder.C19_mount_partial", "Wayfinder.C19_supported", "Wayfinder.C19_config", "Wayfinder.C19_mount_false"], "note": "false if the mount point lands beside a parameter and a static (witness); proved otherwise; C19_config: exactly when"},
  {"property": "C20", "status": "proved", "theorems": ["Wayfinder.C20_exact", "Wayfinder.C20_causes"], "note": "the third failure cause (a completely empty configuration) is part of the exact condition"},
  {"property": "C21", "status": "proved", "theorems": ["Wayfinder.C21_internal"], "note": ""},
  {"property": "C22", "status": "proved", "theorems": ["Wayfinder.C22_deterministic"], "note": ""},
  {"property": "C23", "status": "proved", "theorems": ["Wayfinder.C23_literals"], "note": ""},
  {"property": "C24", "status": "proved", "theorems": ["Wayfinder.C24_actions", "Wayfinder.C24_once", "Wayfinder.C24_no_empty"], "note": ""},
  {"property": "C25", "status": "proved", "theorems": ["Wayfinder.C25_inherited"], "note": ""},
  {"property": "C26", "status": "partial", "theorems": ["Wayfinder.C26_insert", "Wayfinder.C26_history", "Wayfinder.C26_contents", "Wayfinder.C26_sorted", "Wayfinder.C26_failure_partial", "Wayfinder.C26_original_false", "Wayfinder.C26_failure_exact"], "note": "a failed insertion returns an inner subtree instead of the original tree (refuted)"},
  {"property": "C27", "status": "partial", "theorems": ["Wayfinder.C27_roundtrip_partial", "Wayfinder.C27_exact", "Wayfinder.C27_too_deep", "Wayfinder.C27_roundtrip_false"], "note": "holds exactly up to the indentation limit of stringify (C27_exact); beyond it the printed text is always rejected, so the unrestricted statement is refuted"},
  {"property": "C28", "status": "partial", "theorems": ["Wayfinder.C28_idempotent_partial", "Wayfinder.C28_normal_form", "Wayfinder.C28_exact", "Wayfinder.C28_idempotent_false"], "note": "holds for accepted files within the indentation limit of stringify; refuted beyond it"},
  {"property": "C29", "status": "proved", "theorems": ["Wayfinder.C29_written"], "note": ""},
  {"property": "C30", "status": "proved", "theorems": ["Wayfinder.C30_loops", "Wayfinder.C30_recursion", "Wayfinder.C30_consumes", "Wayfinder.C30_positions"], "note": "about the model of the nom combinators described in DESIGN.md"},
  {"property": "C31", "status": "partial", "theorems": ["Wayfinder.C31_place", "Wayfinder.C31_report", "Wayfinder.C31_no_panic", "Wayfinder.C31_nonempty", "Wayfinder.C31_error_partial", "Wayfinder.C31_position_false", "Wayfinder.C31_caret", "Wayfinder.C31_any", "Wayfinder.C31_injective", "Wayfinder.C31_exact"], "note": "the position inside an Error is discarded, so such reports always point at line 1 (refuted); the caret is misaligned from line 10000 on; proved otherwise"},
  {"property": "C32", "status": "partial", "theorems": ["Wayfinder.C32_stable_partial", "Wayfinder.C32_sites", "Wayfinder.C32_exact", "Wayfinder.C32_unknown", "Wayfinder.C32_wrap_false"], "note": "codes wrap around after 2^32 registrations (refuted); proved up to there"},
  {"property": "C33", "status": "proved", "theorems": ["Wayfinder.C33_reline", "Wayfinder.C33_lines", "Wayfinder.C33_crlf"], "note": ""},
  {"property": "C34", "status": "proved", "theorems": ["Wayfinder.C34_verbs", "Wayfinder.C34_resource"], "note": ""},
  {"property": "C35", "status": "partial", "theorems": ["Wayfinder.C35_snake", "Wayfinder.C35_snake_fixed", "Wayfinder.C35_snake_idempotent", "Wayfinder.C35_caps", "Wayfinder.C35_caps_fixed", "Wayfinder.C35_caps_idempotent_partial", "Wayfinder.C35_caps_idempotent_exact", "Wayfinder.C35_caps_idempotent_false", "Wayfinder.C35_snake_ident", "Wayfinder.C35_caps_ident_partial", "Wayfinder.C35_caps_ident_exact", "Wayfinder.C35_caps_ident_false"], "note": "to_caps_case is not idempotent on consecutive underscores and can produce non-identifiers (witnesses)"},
  {"property": "C36", "status": "proved", "theorems": ["Wayfinder.C36_mount_headers"], "note": ""},
  {"property": "C37", "status": "proved", "theorems": ["Wayfinder.C37_untouched", "Wayfinder.C37_success", "Wayfinder.C37_late"], "note": "C37_late: configurations that codegen rejects are found out only after the output file has been truncated"},
  {"property": "C38", "status": "proved", "theorems": ["Wayfinder.C38_prefix", "Wayfinder.C38_complete"], "note": ""},
  {"property": "C39", "status": "proved", "theorems": ["Wayfinder.C39_last", "Wayfinder.C39_effect"], "note": ""},
  {"property": "C40", "status": "proved", "theorems": ["Wayfinder.C40_make"], "note": ""},
  {"property": "C41", "status": "proved", "theorems": ["Wayfinder.C41_from_env", "Wayfinder.C41_command", "Wayfinder.C41_usage"], "note": ""},
  {"property": "C42", "status": "proved", "theorems": ["Wayfinder.Rust.C42_program", "Wayfinder.Rust.C42_sound", "Wayfinder.Rust.C42_complete", "Wayfinder.Rust.C42_redirect_false"], "note": "about the reader of Rust described in DESIGN.md; C42_redirect_false: the condition on the types of redirects is needed"},
  {"property": "C43", "status": "proved", "theorems": ["Wayfinder.Rust.C43_accepted", "Wayfinder.Rust.C43_clashes"], "note": "C43_clashes lists configurations that generate code which is rejected"},
  {"property": "C44", "status": "proved", "theorems": ["Wayfinder.Rust.C44_structs", "Wayfinder.Rust.C44_variants"], "note": ""},
  {"property": "C45", "status": "proved", "theorems": ["Wayfinder.Rust.C45_to_path"], "note": ""},
  {"property": "C46", "status": "proved", "theorems": ["Wayfinder.C46_grammar", "Wayfinder.C46_unambiguous", "Wayfinder.C46_alternatives", "Wayfinder.C46_final_newline"], "note": ""},
  {"property": "C47", "status": "proved", "theorems": ["Wayfinder.C47_match", "Wayfinder.C47_not_allowed", "Wayfinder.C47_error", "Wayfinder.C47_panic", "Wayfinder.C47_not_found", "Wayfinder.C47_unique"], "note": ""},
  {"property": "C48", "status": "proved", "theorems": ["Wayfinder.C48_shown", "Wayfinder.C48_read", "Wayfinder.C48_injective", "Wayfinder.C48_struct"], "note": "reading back is limited to the indentation limit of stringify (see C27)"},
  {"property": "C49", "status": "proved", "theorems": ["Wayfinder.Rust.C49_accepted", "Wayfinder.Rust.C49_typed", "Wayfinder.Rust.C49_hygienic", "Wayfinder.Rust.C49_agreeing", "Wayfinder.Rust.C49_meaning", "Wayfinder.Rust.C49_clean", "Wayfinder.Rust.C49_needed", "Wayfinder.Rust.C49_start_needed"], "note": "about the reader of Rust described in DESIGN.md; for parameters named start in front of another parameter, redirects are assumed to have the type of their target (C49_start_needed)"},
  {"property": "C50", "status": "proved", "theorems": ["Wayfinder.C50_pipeline", "Wayfinder.C50_roundtrip"], "note": "about the reader of Rust described in DESIGN.md"},
  {"property": "C51", "status": "proved", "theorems": ["Wayfinder.C51_verb", "Wayfinder.C51_param", "Wayfinder.C51_line", "Wayfinder.C51_parameter", "Wayfinder.C51_limits"], "note": "for types of a single word and query parameters given by param!; header! is not modelled"},
  {"property": "C52", "status": "proved", "theorems": ["Wayfinder.C52_compiles", "Wayfinder.C52_rejected", "Wayfinder.C52_routes", "Wayfinder.C52_renaming", "Wayfinder.C52_fine", "Wayfinder.C52_bad", "Wayfinder.C52_misrouted", "Wayfinder.C52_len", "Wayfinder.C52_lengths"], "note": ""},
  {"property": "C53", "status": "proved", "theorems": ["Wayfinder.C53_linear", "Wayfinder.C53_returns", "Wayfinder.C53_factor"], "note": ""},
  {"property": "C54", "status": "proved", "theorems": ["Wayfinder.Diff.C54_patch", "Wayfinder.Diff.C54_back", "Wayfinder.Diff.C54_text", "Wayfinder.Diff.C54_verdict"], "note": "the line diff itself (crate prettydiff) is not modelled: its result is assumed to be an edit script"},
  {"property": "C55", "status": "proved", "theorems": ["Wayfinder.C55_session", "Wayfinder.C55_again", "Wayfinder.C55_handled"], "note": "the texts of values and of parse errors are parameters of the model"},
  {"property": "C56", "status": "proved", "theorems": ["Wayfinder.Cases.C56_file", "Wayfinder.Cases.C56_runs", "Wayfinder.Cases.C56_missing", "Wayfinder.Cases.C56_verdict", "Wayfinder.Cases.C56_build", "Wayfinder.Cases.C56_report", "Wayfinder.Cases.C56_dash", "Wayfinder.Cases.C56_shipped", "Wayfinder.Cases.C56_passes"], "note": "that the fixed lines of a test function mean goldenTest is part of the model; C56_dash: with other names there are no tests at all"},
  {"property": "C57", "status": "proved", "theorems": ["Wayfinder.C57_places", "Wayfinder.C57_reports", "Wayfinder.C57_errors", "Wayfinder.C57_first_fault_false", "Wayfinder.C57_hidden_false"], "note": "C57_first_fault_false, C57_hidden_false: witnesses that the place shown need not be that of the first fault"},
  {"property": "C58", "status": "proved", "theorems": ["Wayfinder.C58_elsewhere", "Wayfinder.C58_inside", "Wayfinder.C58_verb", "Wayfinder.C58_first", "Wayfinder.C58_child", "Wayfinder.C58_static", "Wayfinder.C58_child_false"], "note": "C58_child_false: the witness for the conditions on siblings"},
  {"property": "C59", "status": "proved", "theorems": ["Wayfinder.Shipped.C59_files", "Wayfinder.Shipped.C59_text", "Wayfinder.Shipped.C59_example", "Wayfinder.Shipped.C59_uuid", "Wayfinder.Shipped.C59_commons", "Wayfinder.Shipped.C59_nesting", "Wayfinder.Shipped.C59_structured"], "note": "the conditions of C02_config, C04_config, C09_config, C11_config, C12_config, C14_config and C15_config are decidable (Props/Decide.lean)"},
  {"property": "C60", "status": "proved", "theorems": ["Wayfinder.C60_target", "Wayfinder.C60_lands", "Wayfinder.C60_once", "Wayfinder.C60_end_false", "Wayfinder.Shipped.C60_shipped"], "note": "that redirects end is false in general; witness C60_end_false"},
  {"property": "C61", "status": "proved", "theorems": ["Wayfinder.C61_twice", "Wayfinder.C61_exactly", "Wayfinder.C61_lines", "Wayfinder.Demo.C61_tight", "Wayfinder.Demo.C61_factor"], "note": "C61_tight: the bound is reached up to a constant by a family of configurations with any number of routes"},
  {"property": "C62", "status": "proved", "theorems": ["Wayfinder.Goal.C62_file", "Wayfinder.Goal.C62_layout", "Wayfinder.Goal.C62_shown", "Wayfinder.Goal.C62_reads", "Wayfinder.Goal.C62_answers", "Wayfinder.Goal.C62_tests"], "note": "what rustfmt changes is described by Rust.canon (Spec/Format); the text of the file is transcribed by tools/mkgoal.py"},
  {"property": "C63", "status": "proved", "theorems": ["Wayfinder.Shipped.C63_example", "Wayfinder.Shipped.C63_structured", "Wayfinder.Shipped.C63_goal", "Wayfinder.Shipped.C63_tests", "Wayfinder.Shipped.C63_structured_tests"], "note": "that the UUID of the tests parses is a hypothesis: FromStr is a parameter of the model"},
  {"property": "C64", "status": "partial", "theorems": ["Wayfinder.Shipped.C64_file", "Wayfinder.Shipped.C64_code", "Wayfinder.Shipped.C64_exact", "Wayfinder.Shipped.C64_equivalent_partial", "Wayfinder.Shipped.C64_equivalent_false"], "note": "the two configurations name different types for the id; C64_exact is the condition under which they are equivalent"},
  {"property": "C65", "status": "proved", "theorems": ["Wayfinder.C65_param", "Wayfinder.C65_segment", "Wayfinder.C65_query", "Wayfinder.C65_resource", "Wayfinder.C65_routes", "Wayfinder.C65_nested", "Wayfinder.C65_resource_moved", "Wayfinder.C65_routes_moved", "Wayfinder.C65_nested_moved"], "note": "parse::method is C34_verbs, parse::route_config C46_grammar"},
  {"property": "C66", "status": "proved", "theorems": ["Wayfinder.C66_lines", "Wayfinder.C66_accepted", "Wayfinder.C66_tree", "Wayfinder.C66_order", "Wayfinder.C66_indent", "Wayfinder.C66_base", "Wayfinder.Shipped.C66_readme", "Wayfinder.Shipped.C66_readme_answers"], "note": ""},
  {"property": "C67", "status": "partial", "theorems": ["Wayfinder.C67_header_partial", "Wayfinder.C67_slash", "Wayfinder.C67_passed", "Wayfinder.C67_header_false", "Wayfinder.C67_blank_false"], "note": "the header is any lines that do not begin with '/', so it cannot have comments at the beginning of a line, and its empty lines are dropped (C67_header_partial and C67_slash cover all texts before the line '/'); blank lines may be added in the sense of C33, but not with blanks in them"},
  {"property": "C68", "status": "proved", "theorems": ["Wayfinder.C68_linear", "Wayfinder.C68_routes", "Wayfinder.C68_reads"], "note": "steps are counted by a parser built from the same combinators (Spec/ParseCost): one for every character looked at and for every call of a combinator; not counted: building the values, and comparing the text with the rest when a repetition makes no progress"},
  {"property": "C69", "status": "proved", "theorems": ["Wayfinder.C69_captured", "Wayfinder.C69_refused", "Wayfinder.C69_static", "Wayfinder.C69_file", "Wayfinder.C69_query_false", "Wayfinder.C69_percent_false"], "note": "the two last theorems refute the opposite expectations (a query string makes no difference; a percent-encoded byte means the byte)"},
  {"property": "C70", "status": "proved", "theorems": ["Wayfinder.Old.C70_old", "Wayfinder.Old.C70_new", "Wayfinder.Old.C70_agree", "Wayfinder.Old.C70_goal", "Wayfinder.Old.C70_tests", "Wayfinder.Old.C70_n_false", "Wayfinder.Old.C70_empty_false", "Wayfinder.Old.C70_utf8_false"], "note": "Model/Old is written down from the text of match_route in routes2.rs, branch by branch; the declarations in that file are not modelled"},
  {"property": "C71", "status": "proved", "theorems": ["Wayfinder.C71_asked", "Wayfinder.C71_opaque", "Wayfinder.C71_local"], "note": ""},
  {"property": "C72", "status": "proved", "theorems": ["Wayfinder.C72_program", "Wayfinder.C72_path", "Wayfinder.C72_values", "Wayfinder.C72_verbs"], "note": ""},
  {"property": "C73", "status": "proved", "theorems": ["Wayfinder.C73_exact", "Wayfinder.C73_shown", "Wayfinder.C73_same", "Wayfinder.C73_table", "Wayfinder.C73_decided", "Wayfinder.C73_file", "Wayfinder.Demo.C73_hollow"], "note": ""},
  {"property": "C74", "status": "proved", "theorems": ["Wayfinder.C74_bound", "Wayfinder.C74_usize", "Wayfinder.C74_counter", "Wayfinder.C74_reached"], "note": ""},
  {"property": "C75", "status": "proved", "theorems": ["Wayfinder.C75_calls", "Wayfinder.C75_count", "Wayfinder.C75_stops", "Wayfinder.C75_values", "Wayfinder.C75_vain"], "note": ""},
  {"property": "C76", "status": "proved", "theorems": ["Wayfinder.C76_labels", "Wayfinder.C76_supported", "Wayfinder.C76_actions", "Wayfinder.C76_bare", "Wayfinder.C76_supported_false"], "note": "About match_route. That the declared structs of renamed actions do not clash is C43."},
  {"property": "C77", "status": "proved", "theorems": ["Wayfinder.C77_returns", "Wayfinder.C77_sound", "Wayfinder.C77_lints"], "note": ""},
  {"property": "C78", "status": "proved", "theorems": ["Wayfinder.Rust.C78_kept", "Wayfinder.Rust.C78_added", "Wayfinder.Rust.C78_same", "Wayfinder.Rust.C78_query_false", "Wayfinder.Rust.C78_taken_false"], "note": ""},
  {"property": "C79", "status": "proved", "theorems": ["Wayfinder.C79_child", "Wayfinder.C79_resource", "Wayfinder.C79_child_needed", "Wayfinder.C79_resource_needed", "Wayfinder.C79_effect", "Wayfinder.C79_middle_false"], "note": ""},
  {"property": "C80", "status": "proved", "theorems": ["Wayfinder.C80_link", "Wayfinder.C80_redirect", "Wayfinder.C80_values", "Wayfinder.C80_fixed", "Wayfinder.C80_leaves_false", "Wayfinder.Shipped.C80_shipped"], "note": ""},
  {"property": "C81", "status": "proved", "theorems": ["Wayfinder.C81_truncated", "Wayfinder.C81_last", "Wayfinder.C81_declared", "Wayfinder.C81_inOrder", "Wayfinder.C81_halves_false"], "note": ""},
  {"property": "C82", "status": "proved", "theorems": ["Wayfinder.C82_same", "Wayfinder.C82_injective", "Wayfinder.C82_overlap", "Wayfinder.C82_query", "Wayfinder.Demo.C82_slashes"], "note": ""},
  {"property": "C83", "status": "proved", "theorems": ["Wayfinder.C83_mount", "Wayfinder.C83_links", "Wayfinder.C83_delegates", "Wayfinder.C83_leading", "Wayfinder.C83_away", "Wayfinder.C83_file", "Wayfinder.Demo.C83_parameter"], "note": ""},
  {"property": "C84", "status": "proved", "theorems": ["Wayfinder.C84_generated", "Wayfinder.C84_supported", "Wayfinder.C84_twice", "Wayfinder.C84_file", "Wayfinder.Demo.C84_needed", "Wayfinder.Demo.C84_mended"], "note": ""},
  {"property": "C85", "status": "proved", "theorems": ["Wayfinder.C85_scope", "Wayfinder.C85_same", "Wayfinder.C85_merged", "Wayfinder.C85_mount", "Wayfinder.Demo.C85_needed", "Wayfinder.Shipped.C85_shipped"], "note": "Imports are taken to be of types only and to exist; groups, globs, self and super are not read. Imported types are taken to implement what is needed."},
  {"property": "C86", "status": "proved", "theorems": ["Wayfinder.C86_code", "Wayfinder.C86_program", "Wayfinder.C86_split", "Wayfinder.C86_order", "Wayfinder.C86_parts", "Wayfinder.Shipped.C86_example"], "note": ""},
  {"property": "C87", "status": "proved", "theorems": ["Wayfinder.Rust.C87_traits", "Wayfinder.Rust.C87_declared", "Wayfinder.Rust.C87_enough", "Wayfinder.Demo.C87_needed", "Wayfinder.Demo.C87_redirect"], "note": ""},
  {"property": "C88", "status": "proved", "theorems": ["Wayfinder.Layout.C88_exact", "Wayfinder.Layout.C88_laid_out", "Wayfinder.Layout.C88_accepted", "Wayfinder.Demo.C88_needed"], "note": ""},
  {"property": "C89", "status": "proved", "theorems": ["Wayfinder.C89_compiles", "Wayfinder.C89_build", "Wayfinder.C89_enough", "Wayfinder.Demo.C89_needed", "Wayfinder.Shipped.C89_shipped"], "note": ""},
  {"property": "C90", "status": "proved", "theorems": ["Wayfinder.C90_exact", "Wayfinder.C90_bound", "Wayfinder.C90_header", "Wayfinder.Demo.C90_quadratic"], "note": ""},
  {"property": "C91", "status": "proved", "theorems": ["Wayfinder.C91_equal", "Wayfinder.C91_printed", "Wayfinder.C91_assert", "Wayfinder.Demo.C91_ambiguous"], "note": "values of query parameters are None in results of match_route; the comparison and the texts of values are parameters of the model"},
  {"property": "C92", "status": "proved", "theorems": ["Wayfinder.C92_answering", "Wayfinder.C92_dead", "Wayfinder.Demo.C92_silent", "Wayfinder.Demo.C92_shipped"], "note": ""},
  {"property": "C93", "status": "proved", "theorems": ["Wayfinder.C93_margin", "Wayfinder.C93_flat", "Wayfinder.Demo.C93_grows"], "note": ""},
  {"property": "C94", "status": "proved", "theorems": ["Wayfinder.C94_read", "Wayfinder.C94_accepted", "Wayfinder.C94_names", "Wayfinder.C94_file", "Wayfinder.C94_keyword", "Wayfinder.C94_underscore"], "note": "Acceptance is by the reader of Rust in Spec/Read and Spec/Elab, whose keywords are a list written down there."},
  {"property": "C95", "status": "proved", "theorems": ["Wayfinder.C95_format", "Wayfinder.C95_accepted", "Wayfinder.C95_link", "Wayfinder.C95_back", "Wayfinder.C95_lost", "Wayfinder.C95_doubled", "Wayfinder.C95_single"], "note": "The templates that are modelled have places {} and doubled braces; a template with a name or a number in braces, as {id} or {0}, is rejected by the model, whereas rustc may accept it."},
  {"property": "C96", "status": "proved", "theorems": ["Wayfinder.C96_accepted", "Wayfinder.C96_hygienic", "Wayfinder.C96_meaning", "Wayfinder.C96_link", "Wayfinder.C96_back", "Wayfinder.C96_build", "Wayfinder.C96_untyped", "Wayfinder.C96_beyond"], "note": "about the reader of Rust described in DESIGN.md"},
  {"property": "C97", "status": "proved", "theorems": ["Wayfinder.C97_checked", "Wayfinder.C97_answers", "Wayfinder.C97_typed", "Wayfinder.C97_needed"], "note": "types as far as the modelled checks go (DESIGN.md)"},
  {"property": "C98", "status": "proved", "theorems": ["Wayfinder.C98_near", "Wayfinder.C98_kinds", "Wayfinder.C98_matches", "Wayfinder.C98_applies", "Wayfinder.C98_cases"], "note": "closes the exception of C52 for start; for len see C99"},
  {"property": "C99", "status": "proved", "theorems": ["Wayfinder.C99_near", "Wayfinder.C99_kinds", "Wayfinder.C99_matches", "Wayfinder.C99_exact", "Wayfinder.C99_hygienic", "Wayfinder.C99_wrong", "Wayfinder.C99_passes", "Wayfinder.C99_applies", "Wayfinder.C99_cases", "Wayfinder.C99_differs"], "note": "what is answered to the requests that do pass through len is known exactly only for the route /{len} (C52_len)"},
  {"property": "C100", "status": "proved", "theorems": ["Wayfinder.C100_near", "Wayfinder.C100_exact", "Wayfinder.C100_answers", "Wayfinder.C100_build", "Wayfinder.C100_applies", "Wayfinder.C100_built"], "note": "about the reader of Rust described in DESIGN.md"}
]}
