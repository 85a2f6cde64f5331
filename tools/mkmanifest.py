#!/usr/bin/env python3
"""Writes MANIFEST.json: property -> (status, theorems, note)."""
import json, os
W = "Wayfinder."
C = [
 ("C01", "proved", ["C01_soundness"], "for every supported configuration"),
 ("C02", "partial", ["C02_completeness_partial", "C02_follows", "C02_exact", "C02_config", "C02_guarded", "C02_completeness_false"],
  "false in general (witness); proved for tame configurations; C02_exact: a declared route is reached exactly if no step is taken over by a sibling; C02_config: exactly which configurations are complete"),
 ("C03", "proved", ["C03_not_allowed"], ""),
 ("C04", "partial", ["C04_static_partial", "C04_static_false", "C04_unmixed", "C04_unmixed_not_found", "C04_no_instance", "C47_not_found", "C04_config", "C04_instances", "C04_guarded"],
  "exact for configurations that never mix parameters and statics; false in general (witness); C04_config, C04_instances: exactly which configurations lose no declared route (for plain ASCII texts); the condition is decidable"),
 ("C05", "proved", ["C05_leading_slash"], ""),
 ("C06", "proved", ["C06_trailing_slash", "C06_slash_false"], "C06_slash_false: static texts with a slash, which only the API can make, are excluded for a reason"),
 ("C07", "proved", ["C07_parameters"], ""),
 ("C08", "proved", ["C08_errors", "C08_reported"], ""),
 ("C09", "partial", ["C09_no_panic_partial", "C09_exact", "C09_config", "C09_causes", "C09_no_panic_false"],
  "false in general (one-character static next to a parameter); exact causes given; C09_config: exactly which configurations never panic"),
 ("C10", "proved", ["C10_query_none"], ""),
 ("C11", "partial", ["C11_delegates", "C11_precedence_partial", "C11_dead_statics", "C11_config", "C11_precedence_false"],
  "false for a parameter next to several statics (dead branch); C11_config: exactly which configurations have the property"),
 ("C12", "partial", ["C12_capture_partial", "C12_prefix", "C12_config", "C12_guarded", "C12_capture_false"],
  "false for segments that extend the static sibling; C12_config: exactly which configurations have the property; C12_guarded: also those where the type rejects the texts that extend the sibling"),
 ("C13", "partial", ["C13_compilable_partial", "C13_prefix_rejected", "C13_compilable_false"],
  "false in general; exact condition proved"),
 ("C14", "partial", ["C14_renaming_partial", "C14_exact", "C14_config", "C14_len_false", "C14_start_false", "C14_order_false"],
  "false for names of the function's locals and for renamings that reorder parameter siblings (witnesses); proved otherwise; C14_exact: which injective renamings that keep the order give a supported configuration; C14_config: exactly which renamings between supported configurations leave the answers alone"),
 ("C15", "partial", ["C15_to_path", "C15_follows_partial", "C15_tame_partial", "C15_back", "C15_exact", "C15_config", "C15_guarded", "C15_roundtrip_false"],
  "false beside a parameter with several static siblings (witness); proved for tame configurations and along sibling-unambiguous routes; the direction from matches to paths is proved without restriction; C15_exact is the exact condition for single actions and values, C15_config for configurations"),
 ("C16", "proved", ["C16_redirects", "C16_only"], ""),
 ("C17", "proved", ["C17_first_wins"], ""),
 ("C18", "proved", ["C18_order", "C18_modules"], "the matcher and the module tree"),
 ("C19", "partial", ["C19_mounted", "C19_elsewhere", "C19_mount_partial", "C19_supported", "C19_config", "C19_mount_false"],
  "false if the mount point lands beside a parameter and a static (witness); proved otherwise; C19_config: exactly when"),
 ("C20", "proved", ["C20_exact", "C20_causes"],
  "the third failure cause (a completely empty configuration) is part of the exact condition"),
 ("C21", "proved", ["C21_internal"], ""),
 ("C22", "proved", ["C22_deterministic"], ""),
 ("C23", "proved", ["C23_literals"], ""),
 ("C24", "proved", ["C24_actions", "C24_once", "C24_no_empty"], ""),
 ("C25", "proved", ["C25_inherited"], ""),
 ("C26", "partial", ["C26_insert", "C26_history", "C26_contents", "C26_sorted", "C26_failure_partial", "C26_original_false", "C26_failure_exact"],
  "a failed insertion returns an inner subtree instead of the original tree (refuted)"),
 ("C27", "partial", ["C27_roundtrip_partial", "C27_exact", "C27_too_deep", "C27_roundtrip_false"],
  "holds exactly up to the indentation limit of stringify (C27_exact); beyond it the printed text is always rejected, so the unrestricted statement is refuted"),
 ("C28", "partial", ["C28_idempotent_partial", "C28_normal_form", "C28_exact", "C28_idempotent_false"],
  "holds for accepted files within the indentation limit of stringify; refuted beyond it"),
 ("C29", "proved", ["C29_written"], ""),
 ("C30", "proved", ["C30_loops", "C30_recursion", "C30_consumes", "C30_positions"],
  "about the model of the nom combinators described in DESIGN.md"),
 ("C31", "partial", ["C31_place", "C31_report", "C31_no_panic", "C31_nonempty", "C31_error_partial", "C31_position_false", "C31_caret", "C31_any", "C31_injective", "C31_exact"],
  "the position inside an Error is discarded, so such reports always point at line 1 (refuted); the caret is misaligned from line 10000 on; proved otherwise"),
 ("C32", "partial", ["C32_stable_partial", "C32_sites", "C32_exact", "C32_unknown", "C32_wrap_false"],
  "codes wrap around after 2^32 registrations (refuted); proved up to there"),
 ("C33", "proved", ["C33_reline", "C33_lines", "C33_crlf"], ""),
 ("C34", "proved", ["C34_verbs", "C34_resource"], ""),
 ("C35", "partial", ["C35_snake", "C35_snake_fixed", "C35_snake_idempotent", "C35_caps", "C35_caps_fixed",
   "C35_caps_idempotent_partial", "C35_caps_idempotent_exact", "C35_caps_idempotent_false", "C35_snake_ident", "C35_caps_ident_partial", "C35_caps_ident_exact", "C35_caps_ident_false"],
  "to_caps_case is not idempotent on consecutive underscores and can produce non-identifiers (witnesses)"),
 ("C36", "proved", ["C36_mount_headers"], ""),
 ("C37", "proved", ["C37_untouched", "C37_success", "C37_late"],
  "C37_late: configurations that codegen rejects are found out only after the output file has been truncated"),
 ("C38", "proved", ["C38_prefix", "C38_complete"], ""),
 ("C39", "proved", ["C39_last", "C39_effect"], ""),
 ("C40", "proved", ["C40_make"], ""),
 ("C41", "proved", ["C41_from_env", "C41_command", "C41_usage"], ""),
 ("C42", "proved", ["Rust.C42_program", "Rust.C42_sound", "Rust.C42_complete", "Rust.C42_redirect_false"],
  "about the reader of Rust described in DESIGN.md; C42_redirect_false: the condition on the types of redirects is needed"),
 ("C43", "proved", ["Rust.C43_accepted", "Rust.C43_clashes"],
  "C43_clashes lists configurations that generate code which is rejected"),
 ("C44", "proved", ["Rust.C44_structs", "Rust.C44_variants"], ""),
 ("C45", "proved", ["Rust.C45_to_path"], ""),
 ("C46", "proved", ["C46_grammar", "C46_unambiguous", "C46_alternatives", "C46_final_newline"], ""),
 ("C47", "proved", ["C47_match", "C47_not_allowed", "C47_error", "C47_panic", "C47_not_found", "C47_unique"], ""),
 ("C48", "proved", ["C48_shown", "C48_read", "C48_injective", "C48_struct"],
  "reading back is limited to the indentation limit of stringify (see C27)"),
 ("C49", "proved", ["Rust.C49_accepted", "Rust.C49_typed", "Rust.C49_hygienic", "Rust.C49_agreeing", "Rust.C49_meaning", "Rust.C49_clean", "Rust.C49_needed",
  "Rust.C49_start_needed"],
  "about the reader of Rust described in DESIGN.md; for parameters named start in front of another parameter, redirects are assumed to have the type of their target (C49_start_needed)"),
 ("C50", "proved", ["C50_pipeline", "C50_roundtrip"], "about the reader of Rust described in DESIGN.md"),
 ("C51", "proved", ["C51_verb", "C51_param", "C51_line", "C51_parameter", "C51_limits"],
  "for types of a single word and query parameters given by param!; header! is not modelled"),
 ("C52", "proved", ["C52_compiles", "C52_rejected", "C52_routes", "C52_renaming", "C52_fine", "C52_bad", "C52_misrouted", "C52_len", "C52_lengths"], ""),
 ("C53", "proved", ["C53_linear", "C53_returns", "C53_factor"], ""),
 ("C54", "proved", ["Diff.C54_patch", "Diff.C54_back", "Diff.C54_text", "Diff.C54_verdict"],
  "the line diff itself (crate prettydiff) is not modelled: its result is assumed to be an edit script"),
 ("C55", "proved", ["C55_session", "C55_again", "C55_handled"], "the texts of values and of parse errors are parameters of the model"),
 ("C56", "proved", ["Cases.C56_file", "Cases.C56_runs", "Cases.C56_missing", "Cases.C56_verdict", "Cases.C56_build", "Cases.C56_report", "Cases.C56_dash", "Cases.C56_shipped", "Cases.C56_passes"],
  "that the fixed lines of a test function mean goldenTest is part of the model; C56_dash: with other names there are no tests at all"),
 ("C57", "proved", ["C57_places", "C57_reports", "C57_errors", "C57_first_fault_false", "C57_hidden_false"],
  "C57_first_fault_false, C57_hidden_false: witnesses that the place shown need not be that of the first fault"),
 ("C58", "proved", ["C58_elsewhere", "C58_inside", "C58_verb", "C58_first", "C58_child", "C58_static", "C58_child_false"],
  "C58_child_false: the witness for the conditions on siblings"),
 ("C59", "proved", ["Shipped.C59_files", "Shipped.C59_text", "Shipped.C59_example", "Shipped.C59_uuid", "Shipped.C59_commons", "Shipped.C59_nesting", "Shipped.C59_structured"],
  "the conditions of C02_config, C04_config, C09_config, C11_config, C12_config, C14_config and C15_config are decidable (Props/Decide.lean)"),
 ("C60", "proved", ["C60_target", "C60_lands", "C60_once", "C60_end_false", "Shipped.C60_shipped"], "that redirects end is false in general; witness C60_end_false"),
 ("C61", "proved", ["C61_twice", "C61_exactly", "C61_lines", "Demo.C61_tight", "Demo.C61_factor"], "C61_tight: the bound is reached up to a constant by a family of configurations with any number of routes"),
 ("C62", "proved", ["Goal.C62_file", "Goal.C62_layout", "Goal.C62_shown", "Goal.C62_reads", "Goal.C62_answers", "Goal.C62_tests"],
  "what rustfmt changes is described by Rust.canon (Spec/Format); the text of the file is transcribed by tools/mkgoal.py"),
 ("C63", "proved", ["Shipped.C63_example", "Shipped.C63_structured", "Shipped.C63_goal", "Shipped.C63_tests", "Shipped.C63_structured_tests"],
  "that the UUID of the tests parses is a hypothesis: FromStr is a parameter of the model"),
 ("C64", "partial", ["Shipped.C64_file", "Shipped.C64_code", "Shipped.C64_exact", "Shipped.C64_equivalent_partial", "Shipped.C64_equivalent_false"],
  "the two configurations name different types for the id; C64_exact is the condition under which they are equivalent"),
 ("C65", "proved", ["C65_param", "C65_segment", "C65_query", "C65_resource", "C65_routes", "C65_nested", "C65_resource_moved", "C65_routes_moved", "C65_nested_moved"],
  "parse::method is C34_verbs, parse::route_config C46_grammar"),
 ("C66", "proved", ["C66_lines", "C66_accepted", "C66_tree", "C66_order", "C66_indent", "C66_base", "Shipped.C66_readme", "Shipped.C66_readme_answers"], ""),
 ("C67", "partial", ["C67_header_partial", "C67_slash", "C67_passed", "C67_header_false", "C67_blank_false"],
  "the header is any lines that do not begin with '/', so it cannot have comments at the beginning of a line, and its empty lines are dropped (C67_header_partial and C67_slash cover all texts before the line '/'); blank lines may be added in the sense of C33, but not with blanks in them"),
 ("C68", "proved", ["C68_linear", "C68_routes", "C68_reads"],
  "steps are counted by a parser built from the same combinators (Spec/ParseCost): one for every character looked at and for every call of a combinator; not counted: building the values, and comparing the text with the rest when a repetition makes no progress"),
 ("C69", "proved", ["C69_captured", "C69_refused", "C69_static", "C69_file", "C69_query_false", "C69_percent_false"],
  "the two last theorems refute the opposite expectations (a query string makes no difference; a percent-encoded byte means the byte)"),
 ("C70", "proved", ["Old.C70_old", "Old.C70_new", "Old.C70_agree", "Old.C70_goal", "Old.C70_tests", "Old.C70_n_false", "Old.C70_empty_false", "Old.C70_utf8_false"],
  "Model/Old is written down from the text of match_route in routes2.rs, branch by branch; the declarations in that file are not modelled"),
 ("C71", "proved", ["C71_asked", "C71_opaque", "C71_local"], ""),
 ("C72", "proved", ["C72_program", "C72_path", "C72_values", "C72_verbs"],
  ""),
 ("C73", "proved", ["C73_exact", "C73_shown", "C73_same", "C73_table", "C73_decided", "C73_file", "Demo.C73_hollow"],
  ""),
 ("C74", "proved", ["C74_bound", "C74_usize", "C74_counter", "C74_reached"],
  ""),
 ("C75", "proved", ["C75_calls", "C75_count", "C75_stops", "C75_values", "C75_vain"],
  ""),
 ("C76", "proved", ["C76_labels", "C76_supported", "C76_actions", "C76_bare", "C76_supported_false"],
  "About match_route. That the declared structs of renamed actions do not clash is C43."),
 ("C77", "proved", ["C77_returns", "C77_sound", "C77_lints"],
  ""),
 ("C78", "proved", ["Rust.C78_kept", "Rust.C78_added", "Rust.C78_same", "Rust.C78_query_false", "Rust.C78_taken_false"],
  ""),
 ("C79", "proved", ["C79_child", "C79_resource", "C79_child_needed", "C79_resource_needed", "C79_effect", "C79_middle_false"],
  ""),
 ("C80", "proved", ["C80_link", "C80_redirect", "C80_values", "C80_fixed", "C80_leaves_false", "Shipped.C80_shipped"],
  ""),
 ("C81", "proved", ["C81_truncated", "C81_last", "C81_declared", "C81_inOrder", "C81_halves_false"],
  ""),
 ("C82", "proved", ["C82_same", "C82_injective", "C82_overlap", "C82_query", "Demo.C82_slashes"],
  ""),
 ("C83", "proved", ["C83_mount", "C83_links", "C83_delegates", "C83_leading", "C83_away", "C83_file", "Demo.C83_parameter"],
  ""),
 ("C84", "proved", ["C84_generated", "C84_supported", "C84_twice", "C84_file", "Demo.C84_needed", "Demo.C84_mended"],
  ""),
 ("C85", "proved", ["C85_scope", "C85_same", "C85_merged", "C85_mount", "Demo.C85_needed", "Shipped.C85_shipped"],
  "Imports are taken to be of types only and to exist; groups, globs, self and super are not read. Imported types are taken to implement what is needed."),
 ("C86", "proved", ["C86_code", "C86_program", "C86_split", "C86_order", "C86_parts", "Shipped.C86_example"],
  ""),
 ("C87", "proved", ["Rust.C87_traits", "Rust.C87_declared", "Rust.C87_enough", "Demo.C87_needed", "Demo.C87_redirect"],
  ""),
 ("C88", "proved", ["Layout.C88_exact", "Layout.C88_laid_out", "Layout.C88_accepted", "Demo.C88_needed"],
  ""),
 ("C89", "proved", ["C89_compiles", "C89_build", "C89_enough", "Demo.C89_needed", "Shipped.C89_shipped"],
  ""),
 ("C90", "proved", ["C90_exact", "C90_bound", "C90_header", "Demo.C90_quadratic"],
  ""),
 ("C91", "proved", ["C91_equal", "C91_printed", "C91_assert", "Demo.C91_ambiguous"],
  "values of query parameters are None in results of match_route; the comparison and the texts of values are parameters of the model"),
 ("C92", "proved", ["C92_answering", "C92_dead", "Demo.C92_silent", "Demo.C92_shipped"],
  ""),
 ("C93", "proved", ["C93_margin", "C93_flat", "Demo.C93_grows"],
  ""),
 ("C94", "proved", ["C94_read", "C94_accepted", "C94_names", "C94_file", "C94_keyword", "C94_underscore"],
  "Acceptance is by the reader of Rust in Spec/Read and Spec/Elab, whose keywords are a list written down there."),
 ("C95", "proved", ["C95_format", "C95_accepted", "C95_link", "C95_back", "C95_lost", "C95_doubled", "C95_single"],
  "The templates that are modelled have places {} and doubled braces; a template with a name or a number in braces, as {id} or {0}, is rejected by the model, whereas rustc may accept it."),
 ("C96", "proved", ["C96_accepted", "C96_hygienic", "C96_meaning", "C96_link", "C96_back", "C96_build", "C96_untyped", "C96_beyond"],
  "about the reader of Rust described in DESIGN.md"),
 ("C97", "proved", ["C97_checked", "C97_answers", "C97_typed", "C97_needed"], "types as far as the modelled checks go (DESIGN.md)"),
 ("C98", "proved", ["C98_near", "C98_kinds", "C98_matches", "C98_applies", "C98_cases"], "closes the exception of C52 for start; for len see C99"),
 ("C99", "proved", ["C99_near", "C99_kinds", "C99_matches", "C99_exact", "C99_hygienic", "C99_wrong", "C99_passes", "C99_applies", "C99_cases", "C99_differs"],
  "what is answered to the requests that do pass through len is known exactly only for the route /{len} (C52_len)"),
 ("C100", "proved", ["C100_near", "C100_exact", "C100_answers", "C100_build", "C100_applies", "C100_built"],
  "about the reader of Rust described in DESIGN.md"),
]
if __name__ == "__main__":
    out = [json.dumps({"property": p, "status": s, "theorems": [W + t for t in ts], "note": n}) for p, s, ts, n in C]
    path = os.path.join(os.path.dirname(__file__), "..", "MANIFEST.json")
    open(path, "w").write('{"claims": [\n  ' + ",\n  ".join(out) + "\n]}\n")
