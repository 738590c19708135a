# Formal model of clink: design

Source under study: `/repo` (chrisant996/clink at the pinned commit), read as text only.
Model and proofs: Lean 4.33.0, in `lean/Verif`.

## Layout

* `lean/Verif/Model/X.lean`  - executable model of component X. Every definition cites the file and lines it models and says where it simplifies.
* `lean/Verif/Proof/X.lean`  - helper lemmas only.
* `lean/Verif/Props/X.lean`  - small independent specification, the property theorems, and beside each theorem an `example` showing that its hypotheses are met by a non-trivial case.
* `MANIFEST.json` maps each property of `properties.jsonl` to theorem names.
* `seeded/LOG.jsonl` logs seeded-bug experiments (edit the model in a scratch copy, rebuild, see which theorems fail).

## Trusted base

* The Lean 4 kernel. Axioms: only `propext`, `Classical.choice`, `Quot.sound` (a subset for each theorem). No axioms are added, no `sorry`, `native_decide` or `bv_decide`.
* The faithfulness of the model: it was written by reading the C++ and is not extracted from it. Each definition cites its source lines.
* Not modelled: the C++ compiler and memory model, Win32 (registry, console, file system) beyond the contracts stated per component, Lua and Readline internals, timing.

### Axioms of each theorem

<!-- axioms: generated by tools/gen_design.py -->
* no axioms: Display: C46_wrapped_out_of_view, C46_wrapped_shows_prompt; Drag: C74_wrap_violated; LinearAlloc: C06_store_null_is_undefined; Log: C69_first_violated; Str: C05_truncate_beyond_end; Suggest: C52_remove_violated.
* `propext`: Abbrev: C55_cases; Columns: C27_wrapped, C27_wide, C27_same_width; FindLine: C63_beyond, C63_icase_violated, C63_attrs_violated; HistExpand: C42_on_off; KeyNames: C70_place; LineQueue: C13_empty_line_blocks; Log: C69_quiet, C69_hex_violated; Matches: C19_determined; Recog: C39_shutdown_twice, C40_stale; Scroll: C65_absolute_violated, C65_line_violated, C65_page_violated, C65_down_violated; Sticky: C64_off; Stream: C49_text; SuggList: C73_pgdn_violated, C73_remove_violated, C73_regrow_violated, C73_negative_violated; Suggest: C52_not_asked.
* `Quot.sound`, `propext`: Abbrev: C55_begins, C55_two; Attributes: C51_decode; Bind: C22_text, C22_is_bound_prefix, C22_is_bound_wrong, C22_sixteen, C22_high; Columns: C27_once, C27_wraps; Display: C45_cursor_somewhere, C47_prompt, C47_outside; Doskey: C11_paren_lost, C11_overlong_hangs, C12_long_argument; Drag: C74_apart, C74_speed; Ecma48: C16_terminates; Ellipsify: C17_reported, C17_variant_fails; EnvExpand: C41_line; ErrFile: C59_one_violated; FindLine: C63_start, C63_bottom_violated, C63_invalid_violated; Glob: C72_older_negative, C72_closed, C72_size; Hist: C30_lines, C30_sorted, C30_unterminated, C30_divided, C30_hidden, C30_stale_stamp, C31_stamp, C31_bar, C32_fake_stamp, C32_not_refused, C33_no_master, C34_stale, C35_lost_witness, C35_distinct, C36_joined, C37_after_clear; HistCmd: C68_show; HistExpand: C42_runs, C42_plain; KeyList: C67_no_duplicates, C67_categories, C67_plain, C67_macro, C67_duplicates_violated; LineQueue: C13_alias, C13_alias_glued; Log: C69_log, C69_more, C69_group; Matches: C19_kept_determined, C20_sorted, C20_begins, C20_inside; Menu: C53_first_last, C53_typed, C53_line, C53_few_violated, C53_bar_violated, C53_lower_violated, C53_resize_violated, C53_typed_violated, C53_wheel_violated, C53_stuck_violated, C53_beside_violated, C53_preview_violated; Pager: C62_order, C62_stop, C62_small, C62_screen_violated, C62_again_violated, C62_matches_first; Path: C09_no_dots; Recog: C39_never_orphaned, C39_pending, C39_stops, C39_wait, C39_shutdown; Redraw: C48_again; Scripts: C66_all; Settings: C24_name; Sticky: C64_kept, C64_browse, C64_lost_violated, C64_browse_violated; Str: C05_refinement, C05_capacity, C05_concat, C05_concat_no_truncate; StrCompare: C29_accent_lookup, C29_identical_but_different; SuggList: C73_wheel_violated; Suggest: C52_ask, C52_refused, C52_remove; Tasks: C54_lost_violated, C54_right_violated, C54_race_violated, C54_shares_violated, C54_freed_violated; TermIn: C56_distinct, C56_esc, C56_editing, C56_click_violated, C56_order_violated, C56_peek_violated, C56_promise_violated, C56_translate_violated; TermReq: C58_honest, C58_pair_violated, C58_esc_violated, C58_nul_violated, C58_osc_violated, C58_alt_violated; TextList: C71_pgdn_up_violated, C71_pgup_read_violated, C71_copy_violated, C71_delete_filtered_violated, C71_unfilter_violated, C71_wheel_violated, C71_toggle_violated; Utf: C04_to_utf8_bounded, C04_to_utf16_bounded; Wakeup: C43_without; WcWidth: C61_tables, C61_auto_violated; WordClass: C38_painted; Wrap: C60_unique.
* `Classical.choice`, `Quot.sound`, `propext`: Abbrev: C55_unique, C55_ambiguous, C55_missing, C55_remote, C55_plain_name, C55_share, C55_in_bounds, C55_quotes, C55_third_violated, C55_exact_violated, C55_quotes_violated, C55_dot_violated, C55_order_violated, C55_shorter_violated, C55_file_violated, C55_double_violated; Attributes: C51_merge, C51_diff, C51_sgr, C51_sequence, C51_flush, C51_printer, C51_console, C51_screen, C51_end, C51_lost_violated, C51_reverse_violated, C51_rgb_violated, C51_text_violated, C51_console_violated; Autorun: C26_foreign, C26_removed, C26_other, C26_install, C26_install_missing, C26_restore, C26_exact, C26_missing, C26_twice, C26_unquoted, C26_args, C26_type, C26_long, C26_root; Bind: C22_candidates, C22_step, C22_claims, C22_params, C22_other, C22_defined, C22_room, C22_groups, C22_is_bound; Color: C23_accepted, C23_meaning, C23_sgr, C23_round, C23_raw, C23_other, C23_empty_params, C23_overflow, C23_bright_on; Columns: C27_columns, C27_fits, C27_room, C27_begins, C27_order, C27_most, C27_ellipsifies, C27_printed; Display: C45_arranged, C45_unique, C45_rows, C45_cursor, C45_cursor_visible, C45_newline_off_screen, C45_other_control, C46_in_view, C46_not_at_edge, C46_stays, C46_least, C46_amount, C47_click, C47_behind, C47_newline_wrong, C47_split_wrong, C47_wrapped_wrong; Doskey: C11_pieces, C11_no_alias, C11_next_command, C12_tags, C12_words, C12_call, C12_call_then; Drag: C74_can, C74_began, C74_popup_violated; Ecma48: C16_tiles, C16_tiles_bytes, C16_verbatim, C16_chunks, C16_not_covered, C16_run_lost, C16_escape_lost, C16_nesting_lost, C16_stale_type; Ellipsify: C17_reported_basic, C17_readable, C17_width, C17_real, C17_zero_fails, C17_negative_fails, C17_control_fails, C17_path_expand_fails, C18_fits, C18_right, C18_left, C18_path, C18_path_narrow, C18_path_splits, C18_ellipsify, C18_incomplete_fails, C18_broken_fails; EnvExpand: C41_reads, C41_text, C41_undefined, C41_plain, C41_before, C41_cursor, C41_inside, C41_nonneg, C41_set, C41_pseudo, C41_cursor_fails, C41_cursor_wrong; ErrFile: C59_bytes, C59_wide, C59_errorlevel, C59_long_violated, C59_ff_violated; FindLine: C63_prev_text, C63_next_text, C63_prev_attr, C63_next_attr, C63_prev_regex, C63_next_regex, C63_bottom, C63_both_violated; Glob: C72_make, C72_once, C72_older, C72_lua, C72_purge, C72_type, C72_orphaned_violated; Hist: C30_read, C30_buffers, C31_add, C32_remove, C33_kept, C33_present, C33_added, C33_duplicates, C34_view, C34_deleted, C34_compact, C34_hidden, C34_moved, C34_applied, C35_keeps, C35_newest, C35_lost, C35_remap, C36_torn, C37_add, C37_add_run, C37_ignore_run, C37_erase_run; HistCmd: C68_command, C68_wrong, C68_help, C68_delete, C68_listed, C68_show_violated, C68_time_violated, C68_add_violated, C68_joined_violated, C68_dash_violated, C68_format_violated, C68_number_violated; HistExpand: C42_quotes, C42_apostrophe_expands, C42_apostrophe_protects; Intercept: C50_intercept, C50_token, C50_dash, C50_dots, C50_quoted, C50_colour, C50_previous, C50_history, C50_add, C50_erase, C50_caret_violated, C50_caret_quote_violated, C50_drive_letter; KeyList: C67_order, C67_order_keys, C67_along, C67_down, C67_order_violated, C67_down_violated; KeyNames: C70_round_trip, C70_different, C70_backslash_violated, C70_backslash_taken_violated, C70_meta_violated; LineQueue: C13_queue, C13_stream; LinearAlloc: C06_blocks_disjoint, C06_contents_stable, C06_store_reads_back, C06_alloc_succeeds, C06_refused_changes_nothing; Lookaside: C21_pack, C21_unpack, C21_lookup, C21_found, C21_defined, C21_append, C21_one_strings, C21_results, C21_unknown, C21_long; MatchColors: C57_color, C57_word, C57_command, C57_prefix, C57_error, C57_unique, C57_types_violated, C57_quoted_violated, C57_no_violated, C57_any_violated, C57_blank_violated, C57_empty_violated, C57_hidden_violated, C57_link_violated, C57_default_violated, C57_class_violated; MatchWild: C07_sound, C08_complete, C08_exact, C08_star_limit, C08_repeated_separator; Matches: C19_kept, C19_cover, C19_distinct, C19_fix, C19_dirs, C19_history_order, C19_no_separator, C19_count_stays, C19_count_wraps, C20_select, C20_steps, C20_again, C20_original_order, C20_order, C20_restrict, C20_restrict_to, C20_order_lost, C20_copy_order, C20_type_order, C20_files, C20_get, C20_dirs, C20_minus; Menu: C53_grid, C53_selected, C53_room, C53_rows, C53_more, C53_visible, C53_screen, C53_highlight, C53_next, C53_prev, C53_right, C53_down, C53_left, C53_up, C53_latched, C53_pageUp, C53_pageDown, C53_wheelUp, C53_wheelDown, C53_click, C53_closed; Pager: C62_first, C62_next, C62_lines, C62_screen, C62_grid, C62_place, C62_matches_all, C62_matches_next; Path: C09_in_place, C09_components, C09_idempotent, C09_idempotent_drive, C09_idempotent_rooted, C09_reads_before_start, C09_stale_prefix, C09_device, C09_dot_name, C09_not_idempotent, C09_dropped, C09_prefix_separators, C09_new_prefix, C10_append_name, C10_append_directory, C10_parent, C10_parents, C10_append_share, C10_parent_loses_root; Recog: C39_answer, C39_refresh, C39_quiet, C40_answer, C40_current, C40_found, C40_invalidated; Redraw: C46_mark_place, C46_on_last_mark, C48_update, C48_rows, C48_end_lost, C48_reads_before, C48_mark_empty, C48_mark_wide; Scripts: C66_install, C66_uninstall, C66_refused, C66_list, C66_run, C66_undo, C66_all_violated, C66_empty_violated; Scroll: C65_line, C65_page, C65_end, C65_absolute, C65_back; ScrollCar: C28_size, C28_inside, C28_top, C28_bottom, C28_mono, C28_position, C28_char, C28_hittest; Settings: C24_selects, C24_refused, C24_round, C24_prefix, C24_comma, C25_reload, C25_load, C25_idempotent, C25_value, C25_default, C25_unknown, C25_says, C25_set, C25_refused, C25_blank, C25_newline, C25_lost, C44_overlay, C44_set, C44_session, C44_session_overlay, C44_colour, C44_kept, C44_null, C44_clear_bool, C44_clear_text, C44_marked; Sticky: C64_reuse, C64_down, C64_up, C64_replay; Str: C05_append_utf16; StrCompare: C29_common_prefix, C29_equal, C29_equivalence, C29_key_collapse, C29_coarser; Stream: C49_run, C49_modes, C49_round, C49_gap_violated, C49_empty_violated, C49_zero_violated, C49_seek_violated, C49_cr_violated, C49_nul_violated, C49_number_violated; SuggList: C73_selected, C73_full, C73_moves, C73_pgup, C73_pgdn, C73_margin, C73_click; Suggest: C52_set, C52_visible, C52_end, C52_word, C52_next, C52_words, C52_not_inline, C52_again_violated, C52_slash_violated, C52_hang_violated, C52_cut_violated, C52_stale_violated, C52_quote_violated; Tasks: C54_called, C54_right, C54_released, C54_event, C54_other, C54_late, C54_keys, C54_joined, C54_answer, C54_result, C54_cancelled, C54_wait, C54_stuck, C54_overlap, C54_freed, C54_sleep_violated; TermIn: C56_stream, C56_nothing_lost, C56_live, C56_available, C56_peek, C56_text, C56_typed, C56_alt, C56_ctrl, C56_keys; TermReq: C58_order, C58_kept, C58_answer; TextList: C71_visible, C71_reads, C71_moves, C71_click, C71_pgup, C71_pgdn, C71_find, C71_type, C71_filtered, C71_filter, C71_unfilter, C71_choice, C71_copy, C71_delete, C71_pgdn_violated, C71_pgup_violated; Tokens: C14_split, C14_ordered, C14_short_redirection, C14_quoted_redirection, C14_alias_not_ascii, C14_escaped_rem, C14_rem, C14_redirection_split, C15_words, C15_no_overlap, C15_pieces, C15_line, C15_cursor, C15_overlap, C15_words_lost, C15_builtin_digit, C15_empty_words, C15_alias_delim; Utf: C01_utf8_roundtrip, C02_utf16_roundtrip, C02_utf8_roundtrip, C02_convert_append, C03_utf8_arbitrary, C03_utf16_arbitrary; Wakeup: C43_strip, C43_strip_str, C43_again, C43_limit; WcWidth: C61_search, C61_width, C61_mark, C61_jamo, C61_ucs2, C61_others, C61_ambiguous, C61_auto, C61_unicode_violated, C61_ascii, C61_wrap; WordClass: C38_safe, C38_codes, C38_output, C38_refused, C38_apply, C38_shown, C38_equals, C38_classify, C38_applycolor, C38_letters, C38_classifyword, C38_classifyword_m, C38_empty_fails, C38_case_fails, C38_nul_fails; Wrap: C60_plain, C60_lines, C60_stuck, C60_code_lost_violated, C60_code_torn_violated, C60_code_end_violated, C60_code_start_violated.
<!-- end of axioms -->

### Code that is modelled

The lines below are those cited by the definitions in `lean/Verif/Model`; what is simplified is said there. Everything
else is not modelled. In particular: the debug code (`#ifdef DEBUG`, assertions), the code for other platforms, all Lua
scripts, the terminal input and output (`terminal/src` except `ecma48_iter.cpp` and `wcwidth_iter.cpp`), the prompt, popups, `selectcomplete` beyond its columns, suggestions, the installer and the loader (except
AutoRun), DLL injection and hooking, and everything in Readline.

<!-- coverage: generated by tools/gen_design.py -->
| Source (under clink/) | Lines | Model |
|----|----|----|
| app/src/host/host.cpp | 807-827, 1229-1249, 1475-1487 | ErrFile, Glob, Sticky |
| app/src/host/host_cmd.cpp | 435 | Tokens |
| app/src/loader/autorun.cpp | 135-187, 233-377, 422-467, 521-538 | Autorun |
| app/src/loader/history.cpp | 32-34, 87-88, 119-208, 223-243, 261-300, 383-569 | HistCmd |
| app/src/loader/installscripts.cpp | 21-101, 139-148, 213-235 | Scripts |
| app/src/utils/app_context.cpp | 60-98 | Scripts |
| attributes.cpp | 10-13, 18-23, 34-165 | Attributes |
| attributes.h | 46-61 | Attributes |
| clink_api.cpp | 1049-1079 | Stream |
| core/include/core/bldopts.h | 26 | Menu |
| core/include/core/globber.h | 38-49 | Glob |
| core/include/core/linear_allocator.h | 32-34, 41-50, 62-71 | LinearAlloc |
| core/include/core/log.h | 47-49 | Log |
| core/include/core/match_wild.h | 16-208 | MatchWild |
| core/include/core/path.h | 49-68 | Intercept, Path |
| core/include/core/settings.h | 103, 173-206 | Settings |
| core/include/core/str.h | 30, 92-97, 157-190, 210-215, 239-246, 256-261, 271-313, 340-413, 631, 753-780 | Abbrev, ErrFile, MatchColors, Settings, Str, Tokens |
| core/include/core/str_compare.h | 46-104 | StrCompare |
| core/include/core/str_iter.h | 84-96 | Iter, Utf |
| core/src/globber.cpp | 13-72, 81-187 | Glob |
| core/src/linear_allocator.cpp | 12-17, 41-128 | LinearAlloc |
| core/src/log.cpp | 24-63, 73-160, 204-238 | Log |
| core/src/os.cpp | 828-949, 997-1001, 1633-1878 | Abbrev, Doskey, EnvExpand, Utf |
| core/src/path.cpp | 35-68, 81-113, 138-234, 243-272, 288-294, 305-322, 386-399, 451-488, 492-501, 539-559, 570-598, 603-612, 627-664, 669-720, 735-778 | Abbrev, Intercept, MatchColors, Matches, Path, StrCompare |
| core/src/settings.cpp | 20-27, 89-200, 338-401, 522-676, 748-757, 763-1250, 1257-1281, 1341-1380, 1392-1407, 1467-1517, 1540-1569, 1594-1618 | Color, Settings |
| core/src/str.cpp | 83-91 | ErrFile |
| core/src/str_compare.cpp | 11-21, 43-397 | AccentTable, StrCompare |
| core/src/str_convert.cpp | 13-49, 55-58, 66-129, 139-151, 170-213 | Abbrev, Str, Utf |
| core/src/str_iter.cpp | 8-77 | Utf |
| core/src/str_tokeniser.cpp | 95-141 | Doskey, Tokeniser |
| display_readline.cpp | 90-95, 391-421, 514-744, 893-980, 1097-1113, 1962-1963, 1967-1988, 2480-2775, 2795-2880, 3401-3460 | Display, Redraw |
| ecma48_iter.cpp | 97-147 | Attributes |
| ecma48_terminal_out.cpp | 21, 125-160, 215-405 | Attributes |
| host.cpp | 248-300 | Intercept |
| intercept.cpp | 17-302 | Intercept |
| io_api.cpp | 676-684 | Stream |
| lib/include/lib/cmd_tokenisers.h | 32-49, 62-88 | Tokens |
| lib/include/lib/display_readline.h | 66 | Display |
| lib/include/lib/errfile_reader.h | 15-17 | ErrFile |
| lib/include/lib/line_editor.h | 41, 48 | Tokens |
| lib/include/lib/line_queue.h | 12-19, 28-36 | LineQueue |
| lib/include/lib/line_state.h | 12-25 | Tokens |
| lib/include/lib/matches.h | 16-37, 44-48, 101-104, 109-134, 234-246 | MatchColors, Matches |
| lib/include/lib/matches_lookaside.h | 9-16, 24-26 | Lookaside |
| lib/include/lib/recognizer.h | 11 | Recog |
| lib/include/lib/suggestions.h | 13-92 | Suggest |
| lib/include/lib/word_classifications.h | 30-34, 43-79 | WordClass |
| lib/src/bind_resolver.cpp | 15-29, 82-105, 114-129, 138-224, 247-257 | Bind |
| lib/src/bind_resolver.h | 64-75 | Bind |
| lib/src/binder.cpp | 15-102, 107-173, 188-267, 274-405, 427-451 | Bind |
| lib/src/binder.h | 36-77 | Bind |
| lib/src/cmd_tokenisers.cpp | 25-65, 69-86, 109-115, 136-256, 262-487, 498-671 | Doskey, Tokens |
| lib/src/column_widths.cpp | 0, 37-47, 97-105, 141-153, 161-414 | Columns, Menu |
| lib/src/column_widths.h | 18-31 | Columns, Menu |
| lib/src/display_matches.cpp | 617-644, 862-881, 885-1042 | Columns, Pager |
| lib/src/display_readline.cpp | 3463-3466 | Scroll |
| lib/src/doskey.cpp | 32-135, 262-277, 316-693 | Doskey |
| lib/src/ellipsify.cpp | 25, 48-100, 111-385 | Ellipsify |
| lib/src/errfile_reader.cpp | 22-133 | ErrFile |
| lib/src/history_db.cpp | 105-137, 160-171, 196-210, 239-253, 320-364, 403-424, 457-536, 548-595, 610-619, 624-631, 640-751, 769-821, 856-900, 933-962, 973-1113, 1173-1221, 1236-1287, 1307-1327, 1342-1360, 1372-1387, 1484-1533, 1564-1588, 1658-1767, 1771-1892, 1941-1953 | HistDb, HistExpand, HistFile |
| lib/src/history_timeformatter.cpp | 63-71 | HistCmd |
| lib/src/input_params.cpp | 35-47 | Bind |
| lib/src/line_editor_impl.cpp | 1200-1202 | WordClass |
| lib/src/line_queue.cpp | 11-28, 43-164, 173-180 | LineQueue |
| lib/src/match_colors.cpp | 137-143, 147-166, 170-195, 242-575, 615-752, 782-788, 938-1166 | MatchColors |
| lib/src/match_pipeline.cpp | 67-74, 93-107, 118-137, 141-256, 274-280, 400-529 | Matches |
| lib/src/matches_impl.cpp | 42, 69-79, 664-737, 992-1032, 1104-1108, 1145-1253, 1262-1405 | Matches |
| lib/src/matches_impl.h | 14-33, 139-167 | Matches |
| lib/src/matches_lookaside.cpp | 20-94, 99, 111-127, 135-136, 151-157, 166-182, 191-268, 280-289 | Lookaside |
| lib/src/pager_impl.cpp | 49-65, 85-98, 116-162 | Pager |
| lib/src/recognizer.cpp | 85-102, 128-140, 168-299, 352-454, 461-471, 476-477, 647-689 | Recog |
| lib/src/rl/rl_buffer.cpp | 123-134, 148-168 | Suggest |
| lib/src/rl/rl_commands.cpp | 894-901, 1591-1621 | EnvExpand, Suggest |
| lib/src/rl/rl_help.cpp | 97-107, 567, 578-632, 1052-1103, 1168-1210, 1264-1273, 1281, 1301-1323, 1360-1409, 1418, 1428-1534 | KeyList, KeyNames, Pager |
| lib/src/scroll_car.cpp | 26, 39-129 | Menu, ScrollCar, TextList |
| lib/src/scroll_helper.cpp | 15-19, 34-50 | Drag |
| lib/src/selectcomplete_impl.cpp | 109-139, 146-190, 206-351, 456-987, 1006-1017, 1326-1886, 1928-2106, 2115-2135 | Drag, Menu |
| lib/src/slash_translation.cpp | 26-56 | Matches |
| lib/src/sticky_search.cpp | 34-56, 70-93, 102-121 | Sticky |
| lib/src/suggestionlist_impl.cpp | 410-639, 646-657, 706-917, 1360-1366, 1431-1456 | Drag, SuggList |
| lib/src/suggestions.cpp | 176-179, 205-222, 237-300, 310-393, 424-431, 447-561, 578-596, 608-766 | Suggest |
| lib/src/textlist_impl.cpp | 570-680, 821-834, 842-1382, 1418-1435, 1474-1505, 1582-1604, 1909-2003, 2117-2130, 2150-2276 | Drag, TextList |
| lib/src/textlist_impl.h | 92-190 | TextList |
| lib/src/wakeup_chars.cpp | 19-45, 54-58 | Wakeup |
| lib/src/word_classifications.cpp | 52-270 | WordClass |
| lib/src/word_collector.cpp | 109-145, 156-437 | Tokens |
| lua/scripts/core.lua | 208-216 | Glob |
| lua/scripts/coroutines.lua | 221-228, 319 | Tasks |
| lua/src/async_lua_task.cpp | 66-148, 196-211, 249, 279-281, 285-297, 303, 318-325 | Tasks |
| lua/src/async_lua_task.h | 48-90 | Tasks |
| lua/src/console_api.cpp | 133-157, 619-716 | FindLine, Scroll |
| lua/src/http_api.cpp | 582-632, 746-747, 757-807 | Tasks |
| lua/src/internal_api.cpp | 1201-1247 | Tasks |
| lua/src/lua_word_classifications.cpp | 70-112, 140-156, 160-182 | WordClass |
| lua/src/lua_word_classifier.cpp | 23-49 | WordClass |
| lua/src/luaconf.h | 383 | Stream |
| lua/src/os_api.cpp | 143-148, 159-179, 755-760, 783-805, 899-918, 1484-1539, 1602-1603, 2843-2861 | Abbrev, Glob, Tasks |
| lua/src/settings_api.cpp | 132-153, 178-190 | Settings |
| printer.cpp | 36-83, 133-198 | Attributes |
| rl/rl_module.cpp | 1376-1391, 2830-2837, 2846-2867 | Sticky |
| rlmbutil.h | 214 | Redraw |
| sessionstream.cpp | 15, 45-175, 189-279, 335-358, 388-395, 407-685 | Stream |
| sessionstream.h | 19-96 | Stream |
| settings.cpp | 203-300, 404-516, 555-568, 573-593 | Settings |
| terminal/include/terminal/attributes.h | 43-121 | Attributes |
| terminal/include/terminal/ecma48_iter.h | 16-26, 32-39, 130-142 | Ecma48 |
| terminal/include/terminal/wcwidth.h | 46-47 | Ellipsify, Redraw |
| terminal/src/ecma48_iter.cpp | 17-32, 89-93, 284-541 | Ecma48, Ellipsify |
| terminal/src/ecma48_terminal_out.cpp | 266-267 | Ecma48 |
| terminal/src/ecma48_wrapper.cpp | 9-97 | Wrap |
| terminal/src/find_line.cpp | 17-168 | FindLine |
| terminal/src/scroll.cpp | 74-132 | Scroll |
| terminal/src/wcwidth.cpp | 74-80, 94-111, 115-122, 126-175, 209-335, 358-411, 422-438, 461, 511-516, 524-537, 542, 568, 574-664, 752-755, 783-801 | WcWidth |
| terminal/src/wcwidth_iter.cpp | 10-31, 74-210 | Ellipsify |
| terminal/src/win_screen_buffer.cpp | 1312-1329 | FindLine |
| terminal/src/win_terminal_in.cpp | 93-212, 238, 567-576, 672-705, 711-818, 832-994, 1039-1137, 1147-1156, 1185-1304, 1408-1714, 1754-2001 | TermIn, TermReq |
| wcwidth_iter.cpp | 10-19 | Redraw |
| win_screen_buffer.cpp | 1107-1206, 1231-1254 | Attributes |
<!-- end of coverage -->

## Plan per property

| Id | Model | How it is proved |
|----|-------|------------------|
| C01, C02 | UTF-8/UTF-16 iterators and converters over lists of bytes / units | per code point arithmetic lemma, induction over the text |
| C03 | the same iterators on arbitrary lists | structural: suffix lemma for one step, well-founded walk |
| C04 | `builder` with capacity | loop invariant |
| C05 | `str_impl` as (capacity, text, growable) state machine with 16-bit arithmetic | invariant over operation lists |
| C06 | linear allocator as pages + cursor | invariant over operation lists |
| C07, C08 | `match_wild` with its backtracking stack | soundness by invariant over the stack; completeness where true, counterexamples elsewhere |
| C09, C10 | path functions on byte lists; in-place `normalise` with explicit read/write cursors | invariant; counterexamples for the known defects |
| C11, C12 | doskey resolve | refinement to a tag-list specification |
| C13 | line queue | refinement to a FIFO of lines |
| C14, C15 | command and word tokenisers, word collector | loop invariants on offsets; soundness and uniqueness for a grammar of words |
| C16 | escape-sequence state machine | invariant: consumed pieces are a partition |
| C17, C18 | ellipsify over characters with widths | induction over characters |
| C19, C20 | match list add / coalesce / select | refinement to a list without duplicates; permutation lemma |
| C21 | lookaside packing on byte buffers | round trip |
| C22 | binder trie in an index array | refinement to a map from chords |
| C23, C24, C25 | settings parse/format/save/load | round trips; counterexamples where the code loses information |
| C26 | autorun text surgery | round trip; counterexample for quoted neighbours |
| C27, C28 | column layout, scroll car arithmetic | arithmetic invariants |
| C29 | str_compare | refinement to longest common prefix |
| C30 - C37 | history bank files as byte lists, sessions as interleaved steps | refinement to lists of lines, invariants over schedules; counterexample for the limit bug |
| C38 | face arrays | pointwise specification |
| C39, C40 | recogniser threads as an interleaving step relation | inductive invariant; counterexample schedule for stale results |
| C41 | expand_env | refinement to a token list; cursor bound |
| C42 | history_expand_control | refinement to a quote-state specification |
| C43 | strip loop with in-place buffer | equals filter |

## Statements that were changed after the code was modelled

The first version of the property list (commit f94278e) was written before any modelling. The statements
below were reworded afterwards. "Weaker" means that the first wording is false of the code and the
statement now makes room for what the code does; `proved` in MANIFEST.json refers to the new wording only.
The exceptions were found by reading the code and by failed proofs, so they describe the code rather than
an independent idea of what it should do.

| Id | First wording, where it differs | Change | Evidence against the first wording |
|----|----|----|----|
| C05 | truncate keeps a prefix | weaker: only for positions within the text | `C05_truncate_beyond_end` |
| C07 | `*` is some run of characters, `?` exactly one character | more detailed, and weaker for `?` at the end and for leading dots | none proved separately; the modes are in the spec |
| C08 | every instance is matched | weaker: at most ten stars, no repeated separators | `C08_star_limit`, `C08_repeated_separator` |
| C09 | no reads outside; no dots left; idempotent | weaker: three exceptions, one byte read in front | `C09_reads_before_start`, `C09_not_idempotent`, `C09_device`, `C09_dot_name`, ... |
| C10 | each parent is a strict prefix | weaker at roots, otherwise more detailed | `C10_parent_loses_root` |
| C11 | - | stronger | - |
| C12 | `$*` is everything after the alias; `$t` a command separator | more precise, not weaker by intent | - |
| C13 | lines delivered are those queued | restated as a queue of lines of characters | `C13_alias_glued`, `C13_empty_line_blocks` for the combination with aliases |
| C14 | each range contains no unquoted command separator | weaker: five exceptions | `C14_short_redirection`, `C14_quoted_redirection` |
| C15 | words never overlap; last word ends at the cursor | weaker: 65536 limit, plus signs, closing quote; added which words are found | `C15_overlap` |
| C16 | plain text is returned verbatim; pieces cover the text | weaker: 65471 bytes, broken codes left out; otherwise more detailed | `C16_run_lost`, `C16_not_covered` |
| C28 | at the very top exactly at the first position's range | replaced by a bound on the distance from the exact position | - |
| C42 | suppressed exactly in protected quotes | weaker: not for mixed quotes; added what happens then | `C42_apostrophe_expands`, `C42_apostrophe_protects` |
| C43 | the result is terminated | only if the text was | - |
| C30 | terminated, non-empty, non-deleted lines | more detailed; timestamps and removals added; files below 512 MB | `C30_unterminated`, `C30_divided`, `C30_hidden` show why the conditions are there |
| C35 | keeps exactly the newest N distinct lines | weaker: everything lost for some limits | `C35_lost` |
| C36 | only the interrupted line | restricted to the next read | `C36_joined` |
| C31 | file content reachable through the API | weaker: files in order | `C31_bar`, `C37_after_clear` |
| C32 | removing it again is refused | replaced: changes nothing | `C32_not_refused` |
| C37 | every history | weaker: files in order; added the result of whole sequences | `C37_after_clear` |
| C33 | every line not removed or dropped | weaker: with duplicates dropped, only texts that no session wanted to remove; the master file is open when files are collected | `C33_duplicates`, `C33_no_master` |
| C34 | compaction between noting and applying | stronger: every reachable state and step; weaker: no old file of removals | `C34_stale` |
| C40 | requested since the last invalidation | unless the invalidation happened while the worker searched: then the code reports an old result as current | C40_current, C40_stale |
| C22 | Typing a bound chord reports its binding; other chords are unbound; no interference | which bindings are reported, in which order; `step`; claims; parameters; groups; texts; memory. Excluded and shown wrong: 16 or more keys, last byte not ASCII, `is_bound` for beginnings of chords and after a mismatch | `C22_candidates`, `C22_step`, `C22_claims`, `C22_params`, `C22_other`, `C22_defined`, `C22_room`, `C22_text`, `C22_groups`, `C22_is_bound`, and witnesses |
| C19 | Every distinct (text, type) is kept once, in first-added order | which of the texts are changed before the comparison; what is kept with matches from the history; what done_building does; separators of directories. Excluded and shown wrong: 65536 or more matches, the count after done_building drops one, automatic mode without a known separator | `C19_kept`, `C19_distinct`, `C19_cover`, `C19_fix`, `C19_dirs`, and witnesses |
| C20 | in original order | in the order that the list had; original order only after `sort` with sorting off (C20_original_order); C20_order_lost and C20_copy_order show where it is lost | C20_select, C20_original_order |
| C21 | strings come back unchanged | CR, LF and TAB become blanks; the offsets have 16 bits; also the tables, the match set apart, and what becomes of Readline's variables | C21_found, C21_long |
| C23 | parse, format, parse gives the same code | raw codes have the same effect but not the same text (00 is 0, 39 is left out); empty parameters and overflow excluded, with witnesses | C23_round, C23_raw, C23_empty_params, C23_overflow |
| C24 | a unique prefix selects the option it abbreviates | false: only whole names select; the first option picked by number or name is selected | C24_selects, C24_prefix |
| C25 | saving and loading loses no setting | false: refused values, leading blanks, line ends in values and settings of scripts unloaded between two saves are lost; otherwise proved | C25_reload, C25_idempotent, C25_refused, C25_blank, C25_newline, C25_lost |
| C44 | (added later) a change from a session changes only that setting in the file and nothing in the session | false for colours of the session, for settings that are in the file but unknown, and for settings.clear | C44_overlay, C44_set, C44_session, C44_colour, C44_kept, C44_null, C44_clear_bool, C44_clear_text |
| C26 | uninstalling after installing leaves the user's text unchanged | gaps at the beginning and one & at the end are lost; false for entries without quotes, & in arguments, long arguments | C26_restore, C26_exact, C26_twice, C26_unquoted, C26_args, C26_long |
| C27 | the layout fits and each column is wide enough | widths are 16 bits; false for left justified descriptions as printed by display_match_list_internal, and in columns of the same width | C27_fits, C27_room, C27_most, C27_printed, C27_wraps, C27_wide, C27_same_width |
| C17 | the result has at most N cells and the reported width is the real one | reported width: for any bytes; real width: complete codes, and no variant selectors on the left | C17_reported, C17_real; `C17_zero_fails`, `C17_variant_fails`, `C17_path_expand_fails` |
| C18 | unchanged if it fits, otherwise a prefix or suffix with the ellipsis | complete codes; says where the cut is, that codes are kept, and how paths are cut | C18_fits, C18_right, C18_left, C18_path; `C18_incomplete_fails`, `C18_broken_fails` |
| C38 | distinct colours get distinct codes; ranges | colours up to letter case; adds what is shown after a line is drawn, comparing, and the two script functions | C38_codes, C38_output, C38_refused, C38_apply, C38_shown, C38_equals, C38_applycolor, C38_classifyword; `C38_case_fails`, `C38_empty_fails`, `C38_nul_fails` |
| C41 | the cursor always lies within the expanded text | only if no replaced reference but the last changes its length; otherwise refuted | C41_text, C41_before, C41_cursor, C41_inside; `C41_cursor_fails`, `C41_cursor_wrong` |
| C45 | (added later) every character is shown once, and the cursor is on the character at rl_point | false for the cursor on a newline behind a full row and behind control characters from U+0080 to U+009F | `C45_newline_off_screen`, `C45_other_control` |
| C46 | (added later) the cursor stays in view and off the scroll marks | false for the mark at the end of the last row, and if the last line of the prompt needs several rows | `C46_on_last_mark`, `C46_wrapped_out_of_view`, `C46_wrapped_shows_prompt` |
| C47 | (added later) a click finds the character that is shown there | false with newlines, control characters on two rows, and wrapped prompts | `C47_newline_wrong`, `C47_split_wrong`, `C47_wrapped_wrong` |
| C48 | (added later) what is sent to the terminal turns the old row into the new one | false if clearing to the end of the row is allowed and the new row has spaces where `use_eol_opt` looks for them backwards, and for rows with a mark on nothing or on a wide character | `C48_end_lost`, `C48_reads_before`, `C48_mark_empty`, `C48_mark_wide` |
| C49 | (added later) all operations on session streams give what they would give for a file | false for writing behind the end, read(0), seeking before the start, some lines with CR LF or NUL, numbers after truncating | `C49_gap_violated`, `C49_empty_violated`, `C49_zero_violated`, `C49_seek_violated`, `C49_cr_violated`, `C49_nul_violated`, `C49_number_violated` |
| C50 | (added later) a line that names a directory changes to it, `cd -` goes to the previous one | false for carets behind carets and quotes behind carets | `C50_caret_violated`, `C50_caret_quote_violated` |
| C51 | (added later) text is shown with the colours and attributes that it should have | false for bold or underlined text in the default colours, reverse, RGB, a first text with its own sequence, and on the console for bold set apart from the colour | `C51_lost_violated`, `C51_reverse_violated`, `C51_rgb_violated`, `C51_text_violated`, `C51_console_violated` |
| C52 | (added later) accepting a suggestion gives the line that is shown | false for runs of slashes, for accents before the last word (never ends, or cuts a character), for a line that the suggestion no longer continues, and for quotes before a late suggestion; after a part was accepted new suggestions are always asked for | `C52_slash_violated`, `C52_hang_violated`, `C52_cut_violated`, `C52_stale_violated`, `C52_quote_violated`, `C52_again_violated`, `C52_remove_violated` |
| C53 | (added later) the completion list shows what is selected and keys lead where one expects | false with more columns than matches, for clicks on the scroll bar in the preview, for a line that gets lower, after a change of the terminal, for text that makes the line higher, for clicks after the scroll bar is gone, for clicks beside a single column; the wheel does not change the line; F1 violates an assertion | `C53_few_violated`, `C53_bar_violated`, `C53_lower_violated`, `C53_resize_violated`, `C53_typed_violated`, `C53_stuck_violated`, `C53_beside_violated`, `C53_wheel_violated`, `C53_preview_violated` |
| C54 | (added later) scripts get the results of their tasks, and callbacks are run when the work is done | false: a thread turns its own callback off before it sets the event, a coroutine may clear the flag after the last wake, shares found between two tests are lost, two threads may detach at the same time, an object may be collected while the thread uses it, callbacks to free survive the Lua state | `C54_lost_violated`, `C54_sleep_violated`, `C54_shares_violated`, `C54_race_violated`, `C54_freed_violated`, `C54_right_violated` |
| C55 | (added later) an abbreviated name becomes what the directories it can stand for have in common | false: only the first two directories count, also files, `.` is taken for an abbreviation, the order of the listing matters, quotes shift the rest | `C55_third_violated`, `C55_exact_violated`, `C55_file_violated`, `C55_dot_violated`, `C55_order_violated`, `C55_quotes_violated`, `C55_shorter_violated`, `C55_double_violated` |
| C56 | (added later) keys are read once and in order, looking at them changes nothing | false: looking loses clicks, a callback that looks changes the order, a change of the size is looked at wrongly, keys are promised and dropped, replacements are garbled | `C56_click_violated`, `C56_order_violated`, `C56_peek_violated`, `C56_promise_violated`, `C56_translate_violated` |
| C57 | (added later) colouring rules give the documented colour | false in ten details: types without effect, a quoted `not`, `no` with a pattern, `any` alone, a blank escaped at the end, an empty rule, hidden files, links to directories, the default for `di`, `[^a]` | `C57_types_violated`, `C57_quoted_violated`, `C57_no_violated`, `C57_any_violated`, `C57_blank_violated`, `C57_empty_violated`, `C57_hidden_violated`, `C57_link_violated`, `C57_default_violated`, `C57_class_violated` |
| C58 | (added later) requests to the terminal find their answer and lose no keys | false for characters outside the BMP, after Esc or NUL, for answers that are not CSI, for alt-[ with raw Esc | `C58_pair_violated`, `C58_esc_violated`, `C58_nul_violated`, `C58_osc_violated`, `C58_alt_violated` |
| C59 | (added later) the exit code and the lines of its file are read as they were written | false for long lines and the byte 255 in files that are not UTF-16, and for one character in UTF-16 | `C59_long_violated`, `C59_ff_violated`, `C59_one_violated` |
| C60 | (added later) wrapping text puts as many words as fit on each line | true for text without codes; an endless loop for a character wider than a line; codes are lost or torn | `C60_stuck`, `C60_code_lost_violated`, `C60_code_torn_violated`, `C60_code_end_violated`, `C60_code_start_violated` |
| C61 | (added later) the width of a character is what the tables say | true; `auto` is not always 1; tables are older than some characters | `C61_auto_violated`, `C61_unicode_violated` |
| C62 | (added later) lists are shown page by page with nothing left out | true; an item of three lines scrolls away; a terminal of two rows has no pages; after a stop a second question is answered with yes | `C62_screen_violated`, `C62_small`, `C62_again_violated` |
| C63 | (added later) a search of the screen finds the nearest line | true upwards and within the buffer; at the bottom of the buffer nothing found is reported as line 1; an invalid expression as 0; icase does not find capitals; a text with attributes uses a null pointer; 33 attributes overflow an array | `C63_bottom_violated`, `C63_invalid_violated`, `C63_icase_violated`, `C63_both_violated`, `C63_attrs_violated` |
| C64 | (added later) sticky search replays lines and loses no new line | true for the documented use; going up from a changed first entry loses the line; Down and Up after a position was left add an entry again | `C64_lost_violated`, `C64_browse_violated` |
| C65 | (added later) scrolling moves the window as near as possible and keeps its size | true within 16 bits, except for absolute line 2; wraps and overflows beyond | `C65_absolute_violated`, `C65_line_violated`, `C65_page_violated`, `C65_down_violated` |
| C66 | (added later) installing and uninstalling script paths keeps a list of different paths | true for paths that are not empty; `--all` prints nothing | `C66_all_violated`, `C66_empty_violated` |
| C67 | (added later) the list of key bindings shows every binding once and in order | false: see the witnesses; true along the rows and without duplicates | `C67_order_violated`, `C67_duplicates_violated`, `C67_down_violated` |
| C68 | (added later) the command history does what its arguments say | false in corner cases: see the witnesses; true for arguments that can be read | `C68_show_violated`, `C68_time_violated`, `C68_add_violated`, `C68_joined_violated`, `C68_dash_violated`, `C68_format_violated`, `C68_number_violated` |
| C69 | (added later) the log has the messages that it should have, in order | true for groups after the first message; see the witnesses for the other cases | `C69_hex_violated`, `C69_first_violated` |
| C70 | (added later) raw names of keys can be used in an inputrc file | false for `C-\` and for bytes beyond 127 after ESC: see the witnesses; true for all other keys | `C70_backslash_violated`, `C70_backslash_taken_violated`, `C70_meta_violated` |
| C71 | (added later) the popup list always has a visible selected item and works on the right items | false for PgUp in a short list, PgDn near the end, and Ctrl-C and Del in a filtered list: see the witnesses; true otherwise | `C71_pgup_violated`, `C71_pgdn_violated`, `C71_copy_violated`, `C71_delete_filtered_violated`, `C71_unfilter_violated`, `C71_wheel_violated`, `C71_toggle_violated` |
| C72 | (added later) enumerating files gives exactly the ones that were asked for | false for the tag orphaned with a quoted pattern: see the witness; true otherwise | `C72_orphaned_violated` |
| C73 | (added later) in the suggestion list the selected suggestion exists and is visible | false in five cases: see the witnesses; true otherwise | `C73_wheel_violated`, `C73_pgdn_violated`, `C73_remove_violated`, `C73_regrow_violated`, `C73_negative_violated` |
| C74 | (added later) dragging beyond a list scrolls it at a limited rate that grows with time | false for the popup list, and at exactly 49.7 days: see the witnesses; true otherwise | `C74_popup_violated`, `C74_wrap_violated` |

Weak spots that are known in the present statements:

* C14: "before the name of the command" (`Spec.Idle`) includes everything after a redirection that stands
  in front of the command, and was widened once during the proof (`Spec.AfterRedir`) because the step lemma
  failed without it. `C14_alias_not_ascii`, `C14_escaped_rem` and `C14_redirection_split` are
  evaluations of the model; they are not stated as negations of `Spec.Split`.
* C14: a remark (`Spec.Remark`) follows the code: its name may have escaped characters in between, and it may stand behind redirections.
  That the rest of the line belongs to the command is only stated for the plain form (`Spec.PlainRemark`).
* C16: for bytes that are not UTF-8 the characters are those of the model's decoder; that the division into
  pieces is unique is not proved.
* C15: the grammar of words was written from the code and follows it in its odd cases (`C15_builtin_digit`, `C15_empty_words`, `C15_words_lost`).
  It is stated for well-formed text and for the commands that C14 finds; for other bytes only `C15_words` applies.
* C33/C34: each locked operation is one step. Two processes that reap the same session at the same time, and readers between the two locks of `initialise`, are outside the model.
* C39/C40: `busy()` in `wait_while_busy` is read without the lock; it is taken as one access. The C++ memory model is not modelled.
* C22: what is reported after keys that leave a chord behind a parameter (`\e[1;5` and then a key that is not bound) is not stated; the code computes the index of the key with all parameters, also those that are not part of the shorter chord. `set_group` and switching groups while keys are pending are modelled, but nothing is proved about them. Texts of chords that are cut off at 63 keys are only in the model.
* C19: memory for texts is always found (`store_front` of the arena is not modelled), and `done_building` has room for one more byte. Files and directories are told apart by a parameter.
* C20 does not say where in the list the matches that do not fit end up, and `std::sort` is only assumed to give a sorted permutation; matches that are equal in the order may come out in any order. The limits of `match_wild` (C08: ten groups of stars, no doubled separators) and of the 16-bit counter are hypotheses. `CompareStringW` is a parameter that is assumed to be a total preorder.
* C21: memory is a map from addresses to blocks; allocation does not fail; assertions and the `:LA:` checks of debug builds are left out (debug only changes the layout); the arrays of the callers, and that they free blocks after their tables, are not modelled (C21_found needs that the block is unchanged).
* C23: `Means` reads words by their first three characters, as the code does, so it also accepts words such as `redundant` for red; the text is restricted to ASCII in C23_accepted and C23_meaning (C23_round holds for all bytes).
* C24: `Same` takes the comparison of C29 for granted, with its folding of slashes: `a/b` and `a\b` are the same name.
* C25: files must be UTF-8 (a lead byte at the end of a line would swallow the end of the line). Of two lines for a setting that is not known the first is kept, of a known one the last. Raw colour codes are normalised when they are saved; hence `ColoursOk`. The double `fclose` for an empty file of custom defaults (settings.cpp:94-99) is outside the model.
* C26: `isspace` gets a signed `char` in get_cmd_start (undefined for bytes above 127; the model takes them as no space). The UTF-16 of the registry and truncation to 65535 bytes of `str_base` are outside the model.
* C27: a description that is not empty is taken to have a width that is not 0 (a description of escape codes only would take four cells that no column provides). The widths of matches (`printable_len`, display text, length of the common prefix) are inputs. selectcomplete_impl prints its own rows and is not modelled. `s_columns_info[limit - 1]` at column_widths.cpp:404 is evaluated even if the table has never been allocated; the reference is not used.
* C17, C18: widths come from tables that are parameters; only that NUL is no variant selector is assumed, and that the characters of the ellipsis (and letters and the colon in paths) stand on their own. Strings have no limit on their size. A piece whose type is not initialised (C16) counts as different from text.
* C38: the map of colours is a list of keys in the order of insertion with a flag for dangling keys; that a key dangles is modelled only for strings stored inside the string object (the empty string of `str_moveable`, whose buffer is part of the object). The definitions of the previous line are given to `init` of the next one. The order in which the map compares keys is not modelled, so undefined behaviour is claimed only when the dangling key is the only one.
* C41: the environment is a function from names to values; pseudo variables are parameters. Numbers have no upper limit.
* C45-C47: only `display_lines::parse`, the computation of `m_top`, `apply_scroll_markers` and `translate_xy_to_readline`; the hints, the history expansion preview and horizontal scrolling are not modelled. The number of columns of the prompt (`rl_get_prompt_prefix_visible`) and the row of the console's cursor are inputs. Numbers have no limit.
* C48: `update_line` for one row; moving between rows, the pending wrap at the end of a full row, the rprompt (`has_rprompt`), the work around for horizontally scrolled consoles and terminals that lack a capability are not modelled. The terminal is described by `Step` in Spec/Redraw.lean, an assumption: it moves, inserts, deletes, writes and clears cells as told, and may do anything to characters that are cut. Each character must have one face (`OneFace`) and a width.
* C49: the specification says nothing (for this operation; the state afterwards is that of the code) about reading 0 bytes, lines with a NUL or with a CR as the last byte of a buffer, numbers after the stream was cut, the gap after writing behind the end, and seeking before the start or behind the limit. Allocation succeeds. `lines`, `flush`, `setvbuf`, `__tostring` and `discard_all_session_streams` are not modelled.
* C50: expanding variables and `~`, aliases, and what is a directory are parameters. Text that is formatted is not cut. What the command processor does with the command (it expands `%` again) is not modelled. `host_remove_dir_history` is not modelled.
* C51: the numbers of an escape sequence are at most 2147483647 (else the code overflows); the nearest colour in the palette is a parameter; `s_is_scrolled` and the writing of the text itself are not modelled; escape sequences of other kinds are not modelled.
* C52: `rl_forward_word` and `CharLowerW` are parameters (lower case does not make or remove separators); the line and the suggestion are UTF-8 text; drawing, undo groups, the hint, the lock against suggestions and the suggestion list are not modelled.
* C53: integers are unbounded; of the text of the matches only the widths of the columns, and of the line only its last row, are modelled; the text that is inserted, quotes, the needle, the description under the list and the characters of a row are not.
* C54: memory is sequentially consistent and each access is one step (in C++ some of these accesses are data races, and so undefined anyway); the type of a path and the cache under its lock are written in one step; what `do_work` does for a request or for shares is any number of shares and wakes; the idle event, `usable` without an event, the throttling of coroutines and the end of the process are not modelled; coroutines go on in any order. That a callback may add a task to the map while `on_idle` goes through it (which makes the iterator invalid when the map grows) is modelled as a new order of the tasks that are left.
* C55: the file system, the kinds of drives and the comparison without regard to case are parameters; the listing does not change between two searches. The main theorems are for valid text without NUL, in the form of a drive, directory names and a last name; for anything else, also `\\?\` paths, there are only `C55_in_bounds` and `C55_quotes`. `memcmp` of the searched text is assumed to stop at the first difference.
* C56: every call gets the number of records that come in time, there is no clock. Requests to the terminal (`send_terminal_request`) are in C58. Interrupts and failures of `ReadConsoleInputW` are not in the model. A first half of a surrogate pair without the second one, and mouse input that is accepted, are not in `Gives`. What the other keys give (Backspace, Tab, Enter, Space with both ctrl and alt, ctrl with digits and signs) is in the model but there is no theorem that says what it should be.
* C57: `wildmatch`, `past_drive`, whether a file is executable and the file system are parameters. Matches with type 0 (`lstat` is called for them) are in the model but in no theorem, nor is the use of `LS_COLORS` (the model has only that it is used). The defaults for `ro` and `hi` are parameters: at the first parsing (rl_module.cpp:2761) the settings they come from are not yet read (rl_module.cpp:2802). `Spec.has` and `Spec.shown` say which types an entry has; for links they follow the code, which the documentation says little about. An item ends where the code ends it; what is said about broken items (`Broken`) is only that those before are not affected.
* C58: every wait gets the number of records that come in time, there is no clock; `C58_answer` supposes that the records up to the end of the answer all come before each limit (a late answer is in an example only). The checks at the start of `send_terminal_request` (console modes, empty strings, other threads) are not in the model. That keys typed during a request are alone (not halves of pairs) and that Esc comes without ctrl or alt is a hypothesis of `C58_kept`. What `C58_answer` says about answers split by typed keys is nothing.
* C59: the code page is a function from lists of bytes to characters, so that a line is decoded as a whole; `C59_bytes` therefore also supposes that the bytes 10 and 13 are never part of a character, as in every code page of Windows that CMD can use. That `MultiByteToWideChar` fails is not in the model, nor that the text of `out` is limited to 65535 bytes. `atoi` is written down from the C standard.
* C60: text is at most 65471 bytes, the limit of the model of the iterator of codes (C16). The number of steps is a parameter; the theorems say that there is a number from which on the result is the same. `assert(end_fits > s)` is not modelled, as in a release build. That memory runs out in the endless loop of `C60_stuck`, which adds a line in every step, is not in the model.
* C61: the specification of the tables of combining characters and emoji is the tables themselves. The environment variable that overrides the setting, the map that keeps measured widths, and `get_wcwidth_from_font` are not modelled.
* C62: the prompts' texts, erasing them and colours are not in the model. How many lines an item has is a parameter (`lines += len / columns`, `lines_for_row`). Warnings before the list of key bindings, which are shown by the same pager, are not modelled.
* C63: reading the screen does not fail in the model, and `GetConsoleNumLines` is a parameter. That the arguments of the Lua functions give a query (`mode`, `mask` names) is not modelled. A regular expression is a function that gives position and length of the first match; an exception while matching is not modelled.
* C64: the position from a history search (`capture_sticky_search_position`), `operate-and-get-next`, numeric arguments, undo and other commands that replace the line are not in the model; the setting does not change between lines. The history does not change between the lines of `lines`, which is so because no line is added in the theorem about it.
* C65: the last line to show (`calc_max_y_scroll_pos`) is a parameter that is assumed to be in the buffer. `set_scrolled_screen_buffer` and the mode of scrolling for mouse clicks are not modelled.
* C66: parsing the options (`getopt_long`) is not modelled. Reading an existing value of the registry succeeds; whether writing does is a parameter.
* C67: collecting the entries from the keymaps, the widths of columns and the pager's questions are not modelled here; the assertions of `is_keyentry_equivalent` are left out. Widths of characters are a parameter.
* C68: what `history_db` does is not modelled here (see C30 to C37), and expanding, `strftime` and the widths of characters are parameters or left out; only the first call of `getopt` is modelled because `history_bash` makes no second one. `size_t` has 64 bits.
* C69: what `file_logger::emit_impl` writes for a message and failing to open the file are not modelled; there is one logger and one thread. Programs are nested scopes, as log.h demands.
* C70: the friendly names are not modelled; `_rl_to_upper` is for ASCII; in `rl_parse_and_bind` only the part for keys in quotes is modelled, not what follows.
* C71: what is drawn, horizontal scrolling, editing of the needle and the delayed search are not modelled; that a longer needle is found in fewer items is a hypothesis of C71_filtered and C71_filter.
* C72: what FindFirstFileW gives for a pattern, failures of conversions, and cancellation of coroutines are not modelled.
* C73: what is drawn, clicks on the scroll bar, dragging, and turning the list on and off are not modelled; the list is assumed to be drawn after every change.
* C74: which mouse events scroll is given from outside (it is part of C53 for the list of matches).
* The expected values of some examples were taken from evaluating the model, so they check that the
  hypotheses are met and fix the model's behaviour; they are no independent check of the model.
* `seeded/LOG.jsonl` counts a theorem as failed when a proof that it depends on no longer compiles. That
  does not by itself show that its statement became false.

## Disagreements between code and property

Theorems that show the code doing something that the plain reading of a property forbids are listed in the
notes of MANIFEST.json.
