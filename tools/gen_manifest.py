#!/usr/bin/env python3
"""Writes ../MANIFEST.json from the table below."""
import json, os
C = []
def c(prop, status, theorems, note=""):
    C.append(dict(property=prop, status=status, theorems=theorems, note=note))
U = "Clink.Utf."
c("C01", "proved", [U+"C01_utf8_roundtrip"])
c("C02", "proved", [U+"C02_utf16_roundtrip", U+"C02_utf8_roundtrip", U+"C02_convert_append"])
c("C03", "proved", [U+"C03_utf8_arbitrary", U+"C03_utf16_arbitrary"])
c("C04", "proved", [U+"C04_to_utf8_bounded", U+"C04_to_utf16_bounded"])
S = "Clink.Str."
c("C05", "proved", [S+x for x in ["C05_refinement","C05_capacity","C05_concat","C05_concat_no_truncate","C05_append_utf16","C05_truncate_beyond_end"]],
  "Reworded (positions within the text only), see DESIGN.md. truncate() to a position beyond the text but inside the buffer exposes stale bytes; C05_truncate_beyond_end shows it, the property is about positions within the text.")
L = "Clink.LinearAlloc."
c("C06", "proved", [L+x for x in ["C06_blocks_disjoint","C06_contents_stable","C06_store_reads_back","C06_alloc_succeeds","C06_refused_changes_nothing","C06_store_null_is_undefined"]],
  "store(nullptr) is undefined behaviour (C06_store_null_is_undefined); uint32 wrap of sizes is outside the model.")
M = "Clink.MatchWild."
c("C07", "proved", [M+"C07_sound"], "Reworded after modelling, see DESIGN.md. Assumes of CharLowerW that separators are not letters.")
c("C08", "proved", [M+"C08_complete", M+"C08_exact", M+"C08_star_limit", M+"C08_repeated_separator"],
  "Reworded: the first wording had no limits. The two limits in the statement are real: C08_star_limit and C08_repeated_separator give instances that the code rejects.")
K = "Clink.StrCompare."
c("C29", "proved", [K+x for x in ["C29_common_prefix","C29_equal","C29_equivalence","C29_key_collapse","C29_coarser","C29_accent_lookup","C29_identical_but_different"]],
  "Equality needs completely decodable texts: C29_identical_but_different shows identical strings ending in an incomplete UTF-8 sequence reported as different.")
P = "Clink.Path."
c("C09", "proved", [P+x for x in ["C09_in_place","C09_components","C09_no_dots","C09_idempotent","C09_idempotent_drive","C09_idempotent_rooted","C09_reads_before_start","C09_stale_prefix","C09_device","C09_dot_name","C09_not_idempotent","C09_dropped","C09_prefix_separators","C09_new_prefix"]],
  "Reworded: the first wording had no exceptions. The exceptions in the statement are real defects of the code; the last eight theorems are the witnesses.")
c("C10", "proved", [P+x for x in ["C10_append_name","C10_append_directory","C10_parent","C10_parents","C10_append_share","C10_parent_loses_root"]],
  "Reworded: the first wording said that each parent is a strict prefix; C10_parent_loses_root is an exception. isalpha in append and iswalpha in past_drive are modelled by the same function.")
D = "Clink.Doskey."
c("C11", "proved", [D+x for x in ["C11_pieces","C11_no_alias","C11_next_command","C11_paren_lost","C11_overlong_hangs"]],
  "C11_paren_lost: `(foo)` loses its closing parenthesis, i.e. the text replaced by a call can include it. C11_overlong_hangs: the loop never ends for an overlong encoded separator, hence the restriction to well-formed text.")
c("C12", "proved", [D+x for x in ["C12_tags","C12_words","C12_call","C12_call_then","C12_long_argument"]],
  "C12_long_argument: arguments of 32768 bytes break because the length is stored in a short.")
Q = "Clink.LineQueue."
c("C13", "proved", [Q+x for x in ["C13_queue","C13_stream","C13_alias","C13_alias_glued","C13_empty_line_blocks"]],
  "Reworded, see DESIGN.md. C13_queue assumes, as the only caller ensures, that lines put in front carry a flag that turns doskey off; C13_alias covers the other case. C13_alias_glued: a line queued after an alias with several commands was taken from the queue gets glued to the last of them. C13_empty_line_blocks: an empty command of an alias can never be taken by characters.")
T="Clink.Tokens."
c("C14", "proved", [T+x for x in ["C14_split","C14_ordered","C14_short_redirection","C14_quoted_redirection","C14_alias_not_ascii","C14_escaped_rem","C14_rem","C14_redirection_split"]],
  "Reworded: the first wording, 'each range contains no unquoted command separator', is false of the code (C14_short_redirection, C14_quoted_redirection). The exceptions in the statement follow what the code does; see DESIGN.md. C14_split assumes that names of aliases are ASCII; C14_alias_not_ascii shows what happens otherwise. The other theorems are cases where the text counted as 'before the command' or as 'rem' is surprising: after >x a separator is not seen, and >& splits.")
c("C15", "proved", ["Clink.Tokens."+x for x in ["C15_words", "C15_no_overlap", "C15_pieces", "C15_line", "C15_cursor", "C15_overlap", "C15_words_lost", "C15_builtin_digit", "C15_empty_words", "C15_alias_delim"]],
  "Reworded: the first wording had no exceptions for plus signs, closing quotes and lines of 65536 bytes or more; which words are found was added. The grammar is in Spec/Words.lean and Spec/LineWords.lean; it takes the commands of the line from C14. C15_overlap: two words can share a plus sign. C15_words_lost: a word followed by a character whose code ends in FF hides the remaining words.")
E="Clink.Ecma48."
c("C16", "proved", [E+x for x in ["C16_terminates","C16_tiles","C16_tiles_bytes","C16_verbatim","C16_chunks","C16_not_covered","C16_run_lost","C16_escape_lost","C16_nesting_lost","C16_stale_type"]],
  "Reworded, see DESIGN.md. The first wording has no limit on the length: C16_run_lost shows a run of 65536 bytes and everything after it lost. C16_not_covered, C16_escape_lost, C16_nesting_lost and C16_stale_type show that the exceptions in the statement are needed. C16_tiles_bytes speaks of arbitrary bytes through the model's own decoder.")
c("C28", "proved", ["Clink.ScrollCar."+x for x in ["C28_size", "C28_inside", "C28_top", "C28_bottom", "C28_mono", "C28_position", "C28_char", "C28_hittest"]],
  "Rounding of doubles is a parameter with two assumptions (Spec.Rounds); that IEEE doubles meet them is not proved.")
c("C42", "proved", ["Clink.HistExpand."+x for x in ["C42_quotes", "C42_runs", "C42_plain", "C42_on_off", "C42_apostrophe_expands", "C42_apostrophe_protects"]],
  "Reworded: the first wording has no exception for mixed quotes and is false of the code, see C42_apostrophe_expands and C42_apostrophe_protects (echo \"it's !x\"). Only the callback is modelled, not readline's use of it.")
c("C43", "proved", ["Clink.Wakeup."+x for x in ["C43_strip", "C43_strip_str", "C43_without", "C43_again", "C43_limit"]],
  "C43_limit: with a limit before the end of the text, the rest of the text is lost when something was removed; no caller does this.")
c("C30", "proved", ["Clink.Hist."+x for x in ["C30_read", "C30_buffers", "C30_lines", "C30_sorted", "C30_unterminated", "C30_divided", "C30_hidden", "C30_stale_stamp"]],
  "Reworded: conditions were added. C30_unterminated (the last line depends on the buffer), C30_divided (long lines), C30_hidden (a long tag line hides the line after it) show what happens without them; C30_stale_stamp shows that the timestamp of a removed line goes to the next line. C30_lines says what the lines of a file are, without reference to the reader.")
c("C35", "proved", ["Clink.Hist."+x for x in ["C35_keeps", "C35_newest", "C35_lost", "C35_lost_witness", "C35_remap", "C35_distinct"]],
  "Reworded: the first wording is false of the code. C35_lost: all history is lost when the limit is between the number of different lines and the number of lines, because the start index wraps around. Covers rewrite_master_bank.")
c("C36", "proved", ["Clink.Hist."+x for x in ["C36_torn", "C36_joined"]],
  "C36_joined shows that the line appended after the crash is joined to the incomplete one, so one more line is damaged later.")
c("C31", "proved", ["Clink.Hist."+x for x in ["C31_add", "C31_stamp", "C31_bar"]],
  "Conditions added. C31_bar: a line that starts with the deletion mark is written but never seen. Ready in Spec/HistWorld says what files in order are.")
c("C32", "proved", ["Clink.Hist."+x for x in ["C32_remove", "C32_fake_stamp", "C32_not_refused"]],
  "Reworded: that a second removal is refused is false (C32_not_refused); it changes nothing. C32_fake_stamp: removing a line whose text after the first byte looks like a timestamp gives the next line a timestamp. The map from readline's indices to ids (m_index_map) is not modelled.")
c("C37", "proved", ["Clink.Hist."+x for x in ["C37_add", "C37_add_run", "C37_ignore_run", "C37_erase_run", "C37_after_clear"]],
  "Conditions added. C37_after_clear: once the session has cleared the history, its file of removals has no tag, so it is ignored and duplicates remain.")
c("C33", "proved", ["Clink.Hist."+x for x in ["C33_kept", "C33_present", "C33_added", "C33_duplicates", "C33_no_master"]],
  "The steps are the locked operations of HistDb; executions start with a tagged master file and no sessions, and new tags are fresh. C33_duplicates and C33_no_master are executions that lose lines.")
c("C34", "proved", ["Clink.Hist."+x for x in ["C34_view", "C34_deleted", "C34_compact", "C34_hidden", "C34_moved", "C34_applied", "C34_stale"]],
  "Same executions; opening a session assumes that there is no old file of removals, and C34_stale shows what happens otherwise.")
c("C39", "proved", ["Clink.Recog."+x for x in ["C39_never_orphaned", "C39_pending", "C39_stops", "C39_wait", "C39_answer", "C39_refresh", "C39_quiet", "C39_shutdown", "C39_shutdown_twice"]],
  "Inductive invariant of an interleaving semantics of the input thread and the worker. C39_stops: a measure bounds the steps of the worker. C39_shutdown_twice: a witness that the second call of shutdown (app/src/loader/testbed.cpp:224 and 340) uses a closed handle. Not modelled: failing memory or thread creation, the search itself (any result), data races on busy().")
c("C40", "proved", ["Clink.Recog."+x for x in ["C40_answer", "C40_current", "C40_found", "C40_invalidated", "C40_stale"]],
  "C40_current has the hypothesis that nothing is invalidated while the worker searches; C40_stale is a witness that without it a result requested before the invalidation is reported as current (recognizer.cpp:676-681 stores without checking).")
c("C22", "proved", ["Clink.Bind."+x for x in ["C22_candidates", "C22_step", "C22_claims", "C22_params", "C22_other", "C22_defined", "C22_room", "C22_text", "C22_groups", "C22_is_bound", "C22_is_bound_prefix", "C22_is_bound_wrong", "C22_sixteen", "C22_high"]],
  "The node array is proved to be a trie with lists of siblings for all sequences of calls. Violations are proved with witnesses: is_bound says that a bound chord that begins another one is not bound, and that a sequence is bound because of a key after the mismatch; chords of 16 or more keys and chords that end with a byte >= 0x80 are never reported; binding the empty chord twice reads before the buffer (C22_defined). What is reported when keys leave a chord after a parameter is not stated.")
c("C19", "proved", ["Clink.Matches."+x for x in ["C19_kept", "C19_determined", "C19_kept_determined", "C19_cover", "C19_distinct", "C19_fix", "C19_dirs", "C19_history_order", "C19_no_separator", "C19_count_stays", "C19_count_wraps"]],
  "The hash set is modelled as a list that is searched with the comparator. Violations are proved with witnesses: 65536 matches are counted as 0 (C19_count_wraps); a match that done_building drops is still counted, so that reading the last index reads outside of the vector (C19_count_stays); in automatic mode without a separator in the typed word a directory that is found in the file system gets no separator (C19_no_separator). Being the same is not transitive (C19_history_order).")
c("C20", "proved", ["Clink.Matches."+x for x in ["C20_select", "C20_steps", "C20_again", "C20_original_order", "C20_sorted", "C20_order", "C20_restrict", "C20_restrict_to", "C20_begins", "C20_inside", "C20_order_lost", "C20_copy_order", "C20_type_order", "C20_files", "C20_get", "C20_dirs", "C20_minus"]],
  "Selection picks exactly the matches that fit, keeps the rest, and can be repeated; the order of addition comes back by sorting on ordinals; the alphabetical order is a strict weak order; restriction keeps exactly what fits. Counterexamples: order without sorting, order after copying, order of types.")
c("C21", "proved", ["Clink.Lookaside."+x for x in ["C21_pack", "C21_unpack", "C21_lookup", "C21_found", "C21_defined", "C21_append", "C21_one_strings", "C21_results", "C21_unknown", "C21_long"]],
  "Memory is a map from addresses to blocks of bytes, given with each operation. C21_long shows that the 16-bit limit is needed: after a match of 65531 bytes or more, the end of the match is read as its display text. C21_one_strings: the match that is set apart has the match itself as display text and description.")
c("C23", "proved", ["Clink.Color."+x for x in ["C23_accepted", "C23_meaning", "C23_sgr", "C23_round", "C23_raw", "C23_other", "C23_empty_params", "C23_overflow", "C23_bright_on"]],
  "C23_accepted and C23_meaning give the grammar and what it means; C23_round and C23_raw are the round trips. C23_empty_params and C23_overflow show why raw codes are restricted: an empty parameter means 0 to a terminal but is skipped when the code is formatted, and long numbers overflow a signed int. C23_bright_on records an oddity: bright before on makes the text white.")
c("C24", "proved", ["Clink.Settings."+x for x in ["C24_selects", "C24_refused", "C24_name", "C24_round", "C24_prefix", "C24_comma"]],
  "C24_prefix refutes the first wording (prefixes do not select); C24_comma shows why the last name must not be empty. atoi and CharLowerW are parameters; atoi is assumed to read decimal numbers and to saturate.")
c("C25", "proved", ["Clink.Settings."+x for x in ["C25_reload", "C25_load", "C25_idempotent", "C25_value", "C25_default", "C25_unknown", "C25_says", "C25_set", "C25_refused", "C25_blank", "C25_newline", "C25_lost"]],
  "C25_refused, C25_blank, C25_newline and C25_lost refute the first wording where settings are lost; C25_lost comes from settings.cpp:615-616, where flags are cleared on copies. The file format is stated separately (Lines, Says, Means). Colours must be ones that can be described (ColoursOk). Migration from the old settings file, ini files and the default settings file are not modelled.")
c("C44", "proved", ["Clink.Settings."+x for x in ["C44_overlay", "C44_set", "C44_session", "C44_session_overlay", "C44_colour", "C44_kept", "C44_null", "C44_clear_bool", "C44_clear_text", "C44_marked"]],
  "The effect of one change is stated as a relation (Changes) in Spec/Sandbox.lean. Colours in the file must be describable (ColoursOk), names and values must fit on a line (ChangeOk). C44_colour, C44_kept, C44_null, C44_clear_bool, C44_clear_text and C44_marked are witnesses of wrong behaviour.")
c("C26", "proved", ["Clink.Autorun."+x for x in ["C26_foreign", "C26_removed", "C26_other", "C26_install", "C26_install_missing", "C26_restore", "C26_exact", "C26_missing", "C26_twice", "C26_unquoted", "C26_args", "C26_type", "C26_long", "C26_root"]],
  "C26_unquoted, C26_args, C26_type, C26_long and C26_root are witnesses where the first wording fails. The registry is one value with its type; conversion to UTF-16 and the enumeration of keys are not modelled.")
c("C27", "proved", ["Clink.Columns."+x for x in ["C27_columns", "C27_fits", "C27_room", "C27_begins", "C27_once", "C27_order", "C27_most", "C27_ellipsifies", "C27_printed", "C27_wraps", "C27_wrapped", "C27_wide", "C27_same_width"]],
  "Widths of matches are inputs; wrapping of 16 bit widths is modelled and C27_wide shows what it does to absurdly long matches. C27_ellipsifies provides the assumption of C27_printed about descriptions. C27_wraps and C27_wrapped are the negation of the claim for descriptions that are not right justified, C27_same_width for columns that are not fitted.")
c("C17", "proved", ["Clink.Ellipsify."+x for x in ["C17_reported", "C17_reported_basic", "C17_readable", "C17_width", "C17_real", "C17_zero_fails", "C17_negative_fails", "C17_control_fails", "C17_path_expand_fails", "C17_variant_fails"]],
  "The tables behind wcwidth and is_emoji are parameters. The width of a text is specified by grapheme (Spec.Glyph). The reported width is bounded for any bytes; that it is the real width needs complete codes, and no variant selectors for left and path modes.")
c("C18", "proved", ["Clink.Ellipsify."+x for x in ["C18_fits", "C18_right", "C18_left", "C18_path", "C18_path_narrow", "C18_path_splits", "C18_ellipsify", "C18_incomplete_fails", "C18_broken_fails"]],
  "For text with complete codes; the ellipsis consists of plain characters. C18_path is for expand_ctrl = false and text without variant selectors.")
c("C38", "proved", ["Clink.WordClass."+x for x in ["C38_safe", "C38_codes", "C38_output", "C38_refused", "C38_apply", "C38_shown", "C38_painted", "C38_equals", "C38_classify", "C38_applycolor", "C38_letters", "C38_classifyword", "C38_classifyword_m", "C38_empty_fails", "C38_case_fails", "C38_nul_fails"]],
  "\"distinct colours get distinct codes\" is refuted for colours that differ in letter case only (C38_case_fails) and proved otherwise (C38_codes); undefined behaviour after an empty colour is shown (C38_empty_fails).")
c("C41", "proved", ["Clink.EnvExpand."+x for x in ["C41_reads", "C41_text", "C41_undefined", "C41_plain", "C41_before", "C41_cursor", "C41_inside", "C41_nonneg", "C41_line", "C41_set", "C41_pseudo", "C41_cursor_fails", "C41_cursor_wrong"]],
  "the claim about the cursor is refuted in general (C41_cursor_fails) and proved if at most the last replaced reference changes its length.")
c("C45", "proved", ["Clink.Display."+x for x in ["C45_arranged", "C45_unique", "C45_rows", "C45_cursor", "C45_cursor_somewhere", "C45_cursor_visible", "C45_newline_off_screen", "C45_other_control"]],
  "The arrangement is stated on its own (Arranged in Spec/Display.lean): everything in order, newlines, room, and no needless row; what each row must hold is Holds. The tables of widths are parameters; U+0000 is no variant selector and the newline is a control character. Faces are a function of the position. Horizontal scrolling (horz_parse) is not modelled.")
c("C46", "proved", ["Clink.Display."+x for x in ["C46_in_view", "C46_not_at_edge", "C46_stays", "C46_least", "C46_amount", "C46_wrapped_out_of_view", "C46_wrapped_shows_prompt"]] + ["Clink.Redraw."+x for x in ["C46_mark_place", "C46_on_last_mark"]],
  "Rows other than the first start at column 0. \"off the marks\" is refuted for the mark at the end (C46_on_last_mark) and proved for the one at the start (C46_not_at_edge). The place of the mark at the end is proved for characters of their own (no combined emojis). The statement is false for a prompt whose last line needs several rows, shown by witnesses.")
c("C47", "proved", ["Clink.Display."+x for x in ["C47_click", "C47_behind", "C47_prompt", "C47_outside", "C47_newline_wrong", "C47_split_wrong", "C47_wrapped_wrong"]],
  "The cells are those of the arrangement of C45. Without horizontal scrolling. The position of the console's cursor and the scroll offset are parameters. The statement is false with newlines, control characters on two rows and wrapped prompts, shown by witnesses.")
c("C48", "proved", ["Clink.Redraw."+x for x in ["C48_update", "C48_again", "C48_rows", "C48_end_lost", "C48_reads_before", "C48_mark_empty", "C48_mark_wide"]],
  "The terminal is a relation (Step in Spec/Redraw.lean) that leaves open what becomes of characters that are cut. Without the rprompt, without horizontal scrolling and the work around for it. If clearing to the end of the row is allowed, the new row must not start with a space, and must not get shorter if it has two spaces in a row; the witnesses show why. Characters without width and rows with marks are not covered by C48_rows.")
c("C49", "proved", ["Clink.Stream."+x for x in ["C49_run", "C49_modes", "C49_text", "C49_round", "C49_gap_violated", "C49_empty_violated", "C49_zero_violated", "C49_seek_violated", "C49_cr_violated", "C49_nul_violated", "C49_number_violated"]],
  "The specification (Spec/Stream.lean) is a relation on files and handles; it leaves open what the code does wrong, and each such place has a witness. Allocation succeeds; sscanf is a parameter that reads at most the text. lines, flush, setvbuf and __tostring are not modelled.")
c("C50", "proved", ["Clink.Intercept."+x for x in ["C50_intercept", "C50_token", "C50_dash", "C50_dots", "C50_quoted", "C50_colour", "C50_previous", "C50_history", "C50_add", "C50_erase", "C50_caret_violated", "C50_caret_quote_violated", "C50_drive_letter"]],
  "C50_intercept is an equivalence between the code and a relation in Spec/Intercept.lean. The operating system (expanding variables and ~, what is a directory, aliases) is a parameter. C50_quoted assumes that expanding gives no quotes.")
c("C51", "proved", ["Clink.Attributes."+x for x in ["C51_merge", "C51_diff", "C51_decode", "C51_sgr", "C51_sequence", "C51_flush", "C51_printer", "C51_console", "C51_screen", "C51_end", "C51_lost_violated", "C51_reverse_violated", "C51_rgb_violated", "C51_text_violated", "C51_console_violated"]],
  "C51_sgr, C51_sequence, C51_flush and C51_console are equivalences. The nearest colour in the palette is a parameter. C51_printer is for the looks described by Tame in Spec/Attributes.lean; the witnesses show that it is false for others.")
c("C52", "proved", ["Clink.Suggest."+x for x in ["C52_set", "C52_visible", "C52_end", "C52_word", "C52_next", "C52_words", "C52_ask", "C52_not_asked", "C52_refused", "C52_not_inline", "C52_remove", "C52_again_violated", "C52_slash_violated", "C52_hang_violated", "C52_cut_violated", "C52_stale_violated", "C52_quote_violated", "C52_remove_violated"]],
  "C52_set and C52_visible are equivalences. Ready in Spec/Suggest.lean is the state after C52_set and is kept by C52_word and C52_next. C52_word, C52_next and C52_words need Even: the same number of bytes before the replaced text, and no quotes between the word and a later suggestion; the witnesses show that they are false without.")
c("C53", "proved", ["Clink.Menu."+x for x in ["C53_grid", "C53_selected", "C53_room", "C53_rows", "C53_more","C53_visible", "C53_screen", "C53_highlight", "C53_next", "C53_prev", "C53_right", "C53_down", "C53_left", "C53_up", "C53_latched", "C53_pageUp", "C53_pageDown", "C53_first_last", "C53_wheelUp", "C53_wheelDown", "C53_click", "C53_typed", "C53_line", "C53_closed", "C53_few_violated", "C53_bar_violated", "C53_lower_violated", "C53_resize_violated", "C53_typed_violated", "C53_wheel_violated", "C53_stuck_violated", "C53_beside_violated", "C53_preview_violated"]],
  "Reach in Spec/Menu.lean is everything that can be reached by Valid input; CalmReach, for the screen only, also excludes what the witnesses are about: a line whose height changes, a change of the terminal, and TameMouse. ItemsOk excludes more columns than matches in a horizontal list; C53_few_violated shows what happens then.")
c("C54", "proved", ["Clink.Tasks."+x for x in ["C54_called", "C54_right", "C54_released", "C54_event", "C54_other", "C54_late", "C54_keys", "C54_joined", "C54_answer", "C54_result", "C54_cancelled", "C54_wait", "C54_stuck", "C54_overlap", "C54_freed", "C54_lost_violated", "C54_right_violated", "C54_race_violated", "C54_sleep_violated", "C54_shares_violated", "C54_freed_violated"]],
  "Reach Any in Spec/Tasks.lean is everything that can be reached in any order of the steps. C54_right needs that no Lua state ends while there are callbacks to free (Calm); C54_right_violated shows what happens otherwise. C54_freed needs that nothing is collected (Keeps).")
c("C55", "proved", ["Clink.Abbrev."+x for x in ["C55_unique", "C55_ambiguous", "C55_missing", "C55_cases", "C55_remote", "C55_plain_name", "C55_share", "C55_in_bounds", "C55_quotes", "C55_begins", "C55_two", "C55_third_violated", "C55_exact_violated", "C55_quotes_violated", "C55_dot_violated", "C55_order_violated", "C55_shorter_violated", "C55_file_violated", "C55_double_violated"]],
  "Shows says that the environment lists what is on a disk, with names that are plain text. C55_cases says that the three theorems C55_unique, C55_ambiguous and C55_missing cover every path that is Typed.Ok.")
c("C56", "proved", ["Clink.TermIn."+x for x in ["C56_stream", "C56_nothing_lost", "C56_live", "C56_available", "C56_peek", "C56_text", "C56_typed", "C56_alt", "C56_ctrl", "C56_keys", "C56_distinct", "C56_esc", "C56_editing", "C56_click_violated", "C56_order_violated", "C56_peek_violated", "C56_promise_violated", "C56_translate_violated"]],
  "Gives says what bytes a list of records gives, record by record; C56_text, C56_alt, C56_ctrl and C56_keys say what that is for the keys in question. Calm leaves out callbacks that ask for input (C56_order_violated); Plain leaves out replacements that are not ASCII (C56_translate_violated); Gives has no mouse input that is accepted (C56_click_violated).")
c("C57", "proved", ["Clink.MatchColors."+x for x in ["C57_color", "C57_word", "C57_command", "C57_prefix", "C57_error", "C57_unique", "C57_types_violated", "C57_quoted_violated", "C57_no_violated", "C57_any_violated", "C57_blank_violated", "C57_empty_violated", "C57_hidden_violated", "C57_link_violated", "C57_default_violated", "C57_class_violated"]],
  "Usable leaves out rules which the code does not treat as documented: with mi, or and so (C57_types_violated), no with other conditions (C57_no_violated), any alone (C57_any_violated). Says leaves out a quoted not (C57_quoted_violated). The defaults and the name of links are those of the code (C57_default_violated, C57_link_violated). What is shown for hidden entries is what the code does (C57_hidden_violated).")
c("C58", "proved", ["Clink.TermReq."+x for x in ["C58_order", "C58_honest", "C58_kept", "C58_answer", "C58_pair_violated", "C58_esc_violated", "C58_nul_violated", "C58_osc_violated", "C58_alt_violated"]],
  "Alone leaves out halves of surrogate pairs (C58_pair_violated); Typed leaves out the Esc key (C58_esc_violated), NUL (C58_nul_violated) and codes that are not complete within one key (C58_alt_violated); Csi leaves out other answers (C58_osc_violated). C58_answer supposes that all records up to the end of the answer come before each time limit, that fewer than 16384 records wait, and that what is read is not longer than 65471 bytes.")
c("C59", "proved", ["Clink.ErrFile."+x for x in ["C59_bytes", "C59_wide", "C59_errorlevel", "C59_long_violated", "C59_ff_violated", "C59_one_violated"]],
  "The limits of C59_bytes are the places where the code is wrong (C59_long_violated, C59_ff_violated); that of C59_wide too (C59_one_violated). In the default build only the first line is read, which is a number; the long lines are the directory stack (CAPTURE_PUSHD_STACK). A NUL ends a line in the code; no theorem says something about files with NUL.")
c("C60", "proved", ["Clink.Wrap."+x for x in ["C60_plain", "C60_unique", "C60_lines", "C60_stuck", "C60_code_lost_violated", "C60_code_torn_violated", "C60_code_end_violated", "C60_code_start_violated"]],
  "C60_lines is C60_plain for plain characters without the relation of the specification. The hypothesis that no character is wider than a line is needed (C60_stuck). Text with control codes is only in the witnesses: the code is wrong for it, and no theorem says for which texts with codes it is right.")
c("C61", "proved", ["Clink.WcWidth."+x for x in ["C61_search", "C61_tables", "C61_width", "C61_mark", "C61_jamo", "C61_ucs2", "C61_others", "C61_ambiguous", "C61_auto", "C61_auto_violated", "C61_unicode_violated", "C61_ascii", "C61_wrap"]],
  "The tables of the code are part of the model, copied by a script; only the wide characters are stated separately, as a list of intervals. That the tables agree with Unicode is not claimed, and C61_unicode_violated shows characters for which they do not. What a font measures is a parameter.")
c("C62", "proved", ["Clink.Pager."+x for x in ["C62_order", "C62_stop", "C62_first", "C62_next", "C62_lines", "C62_screen", "C62_small", "C62_screen_violated", "C62_again_violated", "C62_grid", "C62_place", "C62_matches_all", "C62_matches_first", "C62_matches_next"]],
  "Items have a number of lines that the callers compute; that the text really takes so many lines is not claimed. C62_matches_first and C62_matches_next are about the loop over rows that showMatches starts with 0 lines; every row has at least one line in the code.")
c("C63", "proved", ["Clink.FindLine."+x for x in ["C63_start", "C63_prev_text", "C63_next_text", "C63_prev_attr", "C63_next_attr", "C63_prev_regex", "C63_next_regex", "C63_bottom", "C63_bottom_violated", "C63_beyond", "C63_invalid_violated", "C63_icase_violated", "C63_both_violated", "C63_attrs_violated"]],
  "The searches with a text are for screens without null characters, because wcsstr stops there. Starting lines are within -32767 ... 32768, since the code narrows them to 16 bits; a screen buffer has at most 32767 lines.")
c("C64", "proved", ["Clink.Sticky."+x for x in ["C64_reuse", "C64_down", "C64_up", "C64_replay", "C64_off", "C64_kept", "C64_browse", "C64_lost_violated", "C64_browse_violated"]],
  "C64_kept needs that Up is not pressed more often than there are entries above the first position, which C64_lost_violated shows to be necessary. Whether a line that is to be added is really added (excluded commands, duplicates) is the subject of C31 and C37.")
c("C65", "proved", ["Clink.Scroll."+x for x in ["C65_line", "C65_page", "C65_end", "C65_absolute", "C65_back", "C65_absolute_violated", "C65_line_violated", "C65_page_violated", "C65_down_violated"]],
  "SetConsoleWindowInfo succeeds for a window that is allowed (a hypothesis), and sets exactly the window given. C65_absolute excludes line 2, for which C65_absolute_violated shows the contrary.")
c("C66", "proved", ["Clink.Scripts."+x for x in ["C66_install", "C66_uninstall", "C66_refused", "C66_list", "C66_all", "C66_run", "C66_undo", "C66_all_violated", "C66_empty_violated"]],
  "Texts are of Unicode scalar values other than NUL. Which paths are the same is `key` of C29. C66_all_violated and C66_empty_violated show the contrary of what the messages say.")
c("C67", "proved", ["Clink.KeyList."+x for x in ["C67_order", "C67_order_keys", "C67_no_duplicates", "C67_along", "C67_down", "C67_categories", "C67_plain", "C67_macro", "C67_order_violated", "C67_duplicates_violated", "C67_down_violated"]],
  "C67_down says exactly when the layout down the columns is right; the three theorems ending in _violated show where the code shows something else.")
c("C68", "proved", ["Clink.HistCmd."+x for x in ["C68_command", "C68_wrong", "C68_help", "C68_delete", "C68_listed", "C68_show", "C68_show_violated", "C68_time_violated", "C68_add_violated", "C68_joined_violated", "C68_dash_violated", "C68_format_violated", "C68_number_violated"]],
  "The theorems ending in _violated show where the code differs from the help and the documentation; C68_show says exactly when the options for times have their effect.")
c("C69", "proved", ["Clink.Log."+x for x in ["C69_log", "C69_more", "C69_group", "C69_quiet", "C69_hex_violated", "C69_first_violated"]],
  "The two theorems ending in _violated show a format that is never used, and what happens in a release build when a group comes before the first message.")
c("C70", "proved", ["Clink.KeyNames."+x for x in ["C70_round_trip", "C70_different", "C70_place", "C70_backslash_violated", "C70_backslash_taken_violated", "C70_meta_violated"]],
  "The theorems ending in _violated show that the two exceptions in the hypothesis are there because the code fails for them.")
c("C71", "proved", ["Clink.TextList."+x for x in ["C71_visible", "C71_reads", "C71_moves", "C71_click", "C71_pgup", "C71_pgdn", "C71_find", "C71_type", "C71_filtered", "C71_filter", "C71_unfilter", "C71_choice", "C71_copy", "C71_delete", "C71_pgdn_violated", "C71_pgdn_up_violated", "C71_pgup_violated", "C71_pgup_read_violated", "C71_copy_violated", "C71_delete_filtered_violated", "C71_unfilter_violated", "C71_wheel_violated", "C71_toggle_violated"]],
  "The theorems ending in _violated show that each exception (`Trouble`, and the hypotheses of C71_pgup, C71_pgdn and C71_copy) is there because the code fails for it.")
c("C72", "proved", ["Clink.Glob."+x for x in ["C72_make", "C72_once", "C72_older", "C72_older_negative", "C72_closed", "C72_lua", "C72_purge", "C72_type", "C72_size", "C72_orphaned_violated"]],
  "The names that the disk gives have no separators and no zeros. C72_orphaned_violated shows that the directory used for links is not the one that is searched.")
c("C73", "proved", ["Clink.SuggList."+x for x in ["C73_selected", "C73_full", "C73_moves", "C73_pgup", "C73_pgdn", "C73_margin", "C73_click", "C73_wheel_violated", "C73_pgdn_violated", "C73_remove_violated", "C73_regrow_violated", "C73_negative_violated"]],
  "Proved for all runs without the wheel turned up at the input line, with fewer than 2^31 suggestions; no empty rows without removals and while the list has a row. The other cases are refuted with witnesses.")
c("C74", "proved", ["Clink.Drag."+x for x in ["C74_can", "C74_apart", "C74_speed", "C74_began", "C74_popup_violated", "C74_wrap_violated"]],
  "The events of a list after clear. The speed is proved if scrolling began less than 2^32 milliseconds ago. C74_popup_violated is about every run without on_scroll, as in the popup list.")
C.sort(key=lambda x: x["property"])
json.dump({"claims": C}, open(os.path.join(os.path.dirname(__file__), "..", "MANIFEST.json"), "w"), indent=1, ensure_ascii=False)
