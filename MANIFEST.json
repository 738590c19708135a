{
 "claims": [
  {
   "property": "C01",
   "status": "proved",
   "theorems": [
    "Clink.Utf.C01_utf8_roundtrip"
   ],
   "note": ""
  },
  {
   "property": "C02",
   "status": "proved",
   "theorems": [
    "Clink.Utf.C02_utf16_roundtrip",
    "Clink.Utf.C02_utf8_roundtrip",
    "Clink.Utf.C02_convert_append"
   ],
   "note": ""
  },
  {
   "property": "C03",
   "status": "proved",
   "theorems": [
    "Clink.Utf.C03_utf8_arbitrary",
    "Clink.Utf.C03_utf16_arbitrary"
   ],
   "note": ""
  },
  {
   "property": "C04",
   "status": "proved",
   "theorems": [
    "Clink.Utf.C04_to_utf8_bounded",
    "Clink.Utf.C04_to_utf16_bounded"
   ],
   "note": ""
  },
  {
   "property": "C05",
   "status": "proved",
   "theorems": [
    "Clink.Str.C05_refinement",
    "Clink.Str.C05_capacity",
    "Clink.Str.C05_concat",
    "Clink.Str.C05_concat_no_truncate",
    "Clink.Str.C05_append_utf16",
    "Clink.Str.C05_truncate_beyond_end"
   ],
   "note": "Reworded (positions within the text only), see DESIGN.md. truncate() to a position beyond the text but inside the buffer exposes stale bytes; C05_truncate_beyond_end shows it, the property is about positions within the text."
  },
  {
   "property": "C06",
   "status": "proved",
   "theorems": [
    "Clink.LinearAlloc.C06_blocks_disjoint",
    "Clink.LinearAlloc.C06_contents_stable",
    "Clink.LinearAlloc.C06_store_reads_back",
    "Clink.LinearAlloc.C06_alloc_succeeds",
    "Clink.LinearAlloc.C06_refused_changes_nothing",
    "Clink.LinearAlloc.C06_store_null_is_undefined"
   ],
   "note": "store(nullptr) is undefined behaviour (C06_store_null_is_undefined); uint32 wrap of sizes is outside the model."
  },
  {
   "property": "C07",
   "status": "proved",
   "theorems": [
    "Clink.MatchWild.C07_sound"
   ],
   "note": "Reworded after modelling, see DESIGN.md. Assumes of CharLowerW that separators are not letters."
  },
  {
   "property": "C08",
   "status": "proved",
   "theorems": [
    "Clink.MatchWild.C08_complete",
    "Clink.MatchWild.C08_exact",
    "Clink.MatchWild.C08_star_limit",
    "Clink.MatchWild.C08_repeated_separator"
   ],
   "note": "Reworded: the first wording had no limits. The two limits in the statement are real: C08_star_limit and C08_repeated_separator give instances that the code rejects."
  },
  {
   "property": "C09",
   "status": "proved",
   "theorems": [
    "Clink.Path.C09_in_place",
    "Clink.Path.C09_components",
    "Clink.Path.C09_no_dots",
    "Clink.Path.C09_idempotent",
    "Clink.Path.C09_idempotent_drive",
    "Clink.Path.C09_idempotent_rooted",
    "Clink.Path.C09_reads_before_start",
    "Clink.Path.C09_stale_prefix",
    "Clink.Path.C09_device",
    "Clink.Path.C09_dot_name",
    "Clink.Path.C09_not_idempotent",
    "Clink.Path.C09_dropped",
    "Clink.Path.C09_prefix_separators",
    "Clink.Path.C09_new_prefix"
   ],
   "note": "Reworded: the first wording had no exceptions. The exceptions in the statement are real defects of the code; the last eight theorems are the witnesses."
  },
  {
   "property": "C10",
   "status": "proved",
   "theorems": [
    "Clink.Path.C10_append_name",
    "Clink.Path.C10_append_directory",
    "Clink.Path.C10_parent",
    "Clink.Path.C10_parents",
    "Clink.Path.C10_append_share",
    "Clink.Path.C10_parent_loses_root"
   ],
   "note": "Reworded: the first wording said that each parent is a strict prefix; C10_parent_loses_root is an exception. isalpha in append and iswalpha in past_drive are modelled by the same function."
  },
  {
   "property": "C11",
   "status": "proved",
   "theorems": [
    "Clink.Doskey.C11_pieces",
    "Clink.Doskey.C11_no_alias",
    "Clink.Doskey.C11_next_command",
    "Clink.Doskey.C11_paren_lost",
    "Clink.Doskey.C11_overlong_hangs"
   ],
   "note": "C11_paren_lost: `(foo)` loses its closing parenthesis, i.e. the text replaced by a call can include it. C11_overlong_hangs: the loop never ends for an overlong encoded separator, hence the restriction to well-formed text."
  },
  {
   "property": "C12",
   "status": "proved",
   "theorems": [
    "Clink.Doskey.C12_tags",
    "Clink.Doskey.C12_words",
    "Clink.Doskey.C12_call",
    "Clink.Doskey.C12_call_then",
    "Clink.Doskey.C12_long_argument"
   ],
   "note": "C12_long_argument: arguments of 32768 bytes break because the length is stored in a short."
  },
  {
   "property": "C13",
   "status": "proved",
   "theorems": [
    "Clink.LineQueue.C13_queue",
    "Clink.LineQueue.C13_stream",
    "Clink.LineQueue.C13_alias",
    "Clink.LineQueue.C13_alias_glued",
    "Clink.LineQueue.C13_empty_line_blocks"
   ],
   "note": "Reworded, see DESIGN.md. C13_queue assumes, as the only caller ensures, that lines put in front carry a flag that turns doskey off; C13_alias covers the other case. C13_alias_glued: a line queued after an alias with several commands was taken from the queue gets glued to the last of them. C13_empty_line_blocks: an empty command of an alias can never be taken by characters."
  },
  {
   "property": "C14",
   "status": "proved",
   "theorems": [
    "Clink.Tokens.C14_split",
    "Clink.Tokens.C14_ordered",
    "Clink.Tokens.C14_short_redirection",
    "Clink.Tokens.C14_quoted_redirection",
    "Clink.Tokens.C14_alias_not_ascii",
    "Clink.Tokens.C14_escaped_rem",
    "Clink.Tokens.C14_rem",
    "Clink.Tokens.C14_redirection_split"
   ],
   "note": "Reworded: the first wording, 'each range contains no unquoted command separator', is false of the code (C14_short_redirection, C14_quoted_redirection). The exceptions in the statement follow what the code does; see DESIGN.md. C14_split assumes that names of aliases are ASCII; C14_alias_not_ascii shows what happens otherwise. The other theorems are cases where the text counted as 'before the command' or as 'rem' is surprising: after >x a separator is not seen, and >& splits."
  },
  {
   "property": "C15",
   "status": "proved",
   "theorems": [
    "Clink.Tokens.C15_words",
    "Clink.Tokens.C15_no_overlap",
    "Clink.Tokens.C15_pieces",
    "Clink.Tokens.C15_line",
    "Clink.Tokens.C15_cursor",
    "Clink.Tokens.C15_overlap",
    "Clink.Tokens.C15_words_lost",
    "Clink.Tokens.C15_builtin_digit",
    "Clink.Tokens.C15_empty_words",
    "Clink.Tokens.C15_alias_delim"
   ],
   "note": "Reworded: the first wording had no exceptions for plus signs, closing quotes and lines of 65536 bytes or more; which words are found was added. The grammar is in Spec/Words.lean and Spec/LineWords.lean; it takes the commands of the line from C14. C15_overlap: two words can share a plus sign. C15_words_lost: a word followed by a character whose code ends in FF hides the remaining words."
  },
  {
   "property": "C16",
   "status": "proved",
   "theorems": [
    "Clink.Ecma48.C16_terminates",
    "Clink.Ecma48.C16_tiles",
    "Clink.Ecma48.C16_tiles_bytes",
    "Clink.Ecma48.C16_verbatim",
    "Clink.Ecma48.C16_chunks",
    "Clink.Ecma48.C16_not_covered",
    "Clink.Ecma48.C16_run_lost",
    "Clink.Ecma48.C16_escape_lost",
    "Clink.Ecma48.C16_nesting_lost",
    "Clink.Ecma48.C16_stale_type"
   ],
   "note": "Reworded, see DESIGN.md. The first wording has no limit on the length: C16_run_lost shows a run of 65536 bytes and everything after it lost. C16_not_covered, C16_escape_lost, C16_nesting_lost and C16_stale_type show that the exceptions in the statement are needed. C16_tiles_bytes speaks of arbitrary bytes through the model's own decoder."
  },
  {
   "property": "C17",
   "status": "proved",
   "theorems": [
    "Clink.Ellipsify.C17_reported",
    "Clink.Ellipsify.C17_reported_basic",
    "Clink.Ellipsify.C17_readable",
    "Clink.Ellipsify.C17_width",
    "Clink.Ellipsify.C17_real",
    "Clink.Ellipsify.C17_zero_fails",
    "Clink.Ellipsify.C17_negative_fails",
    "Clink.Ellipsify.C17_control_fails",
    "Clink.Ellipsify.C17_path_expand_fails",
    "Clink.Ellipsify.C17_variant_fails"
   ],
   "note": "The tables behind wcwidth and is_emoji are parameters. The width of a text is specified by grapheme (Spec.Glyph). The reported width is bounded for any bytes; that it is the real width needs complete codes, and no variant selectors for left and path modes."
  },
  {
   "property": "C18",
   "status": "proved",
   "theorems": [
    "Clink.Ellipsify.C18_fits",
    "Clink.Ellipsify.C18_right",
    "Clink.Ellipsify.C18_left",
    "Clink.Ellipsify.C18_path",
    "Clink.Ellipsify.C18_path_narrow",
    "Clink.Ellipsify.C18_path_splits",
    "Clink.Ellipsify.C18_ellipsify",
    "Clink.Ellipsify.C18_incomplete_fails",
    "Clink.Ellipsify.C18_broken_fails"
   ],
   "note": "For text with complete codes; the ellipsis consists of plain characters. C18_path is for expand_ctrl = false and text without variant selectors."
  },
  {
   "property": "C19",
   "status": "proved",
   "theorems": [
    "Clink.Matches.C19_kept",
    "Clink.Matches.C19_determined",
    "Clink.Matches.C19_kept_determined",
    "Clink.Matches.C19_cover",
    "Clink.Matches.C19_distinct",
    "Clink.Matches.C19_fix",
    "Clink.Matches.C19_dirs",
    "Clink.Matches.C19_history_order",
    "Clink.Matches.C19_no_separator",
    "Clink.Matches.C19_count_stays",
    "Clink.Matches.C19_count_wraps"
   ],
   "note": "The hash set is modelled as a list that is searched with the comparator. Violations are proved with witnesses: 65536 matches are counted as 0 (C19_count_wraps); a match that done_building drops is still counted, so that reading the last index reads outside of the vector (C19_count_stays); in automatic mode without a separator in the typed word a directory that is found in the file system gets no separator (C19_no_separator). Being the same is not transitive (C19_history_order)."
  },
  {
   "property": "C20",
   "status": "proved",
   "theorems": [
    "Clink.Matches.C20_select",
    "Clink.Matches.C20_steps",
    "Clink.Matches.C20_again",
    "Clink.Matches.C20_original_order",
    "Clink.Matches.C20_sorted",
    "Clink.Matches.C20_order",
    "Clink.Matches.C20_restrict",
    "Clink.Matches.C20_restrict_to",
    "Clink.Matches.C20_begins",
    "Clink.Matches.C20_inside",
    "Clink.Matches.C20_order_lost",
    "Clink.Matches.C20_copy_order",
    "Clink.Matches.C20_type_order",
    "Clink.Matches.C20_files",
    "Clink.Matches.C20_get",
    "Clink.Matches.C20_dirs",
    "Clink.Matches.C20_minus"
   ],
   "note": "Selection picks exactly the matches that fit, keeps the rest, and can be repeated; the order of addition comes back by sorting on ordinals; the alphabetical order is a strict weak order; restriction keeps exactly what fits. Counterexamples: order without sorting, order after copying, order of types."
  },
  {
   "property": "C21",
   "status": "proved",
   "theorems": [
    "Clink.Lookaside.C21_pack",
    "Clink.Lookaside.C21_unpack",
    "Clink.Lookaside.C21_lookup",
    "Clink.Lookaside.C21_found",
    "Clink.Lookaside.C21_defined",
    "Clink.Lookaside.C21_append",
    "Clink.Lookaside.C21_one_strings",
    "Clink.Lookaside.C21_results",
    "Clink.Lookaside.C21_unknown",
    "Clink.Lookaside.C21_long"
   ],
   "note": "Memory is a map from addresses to blocks of bytes, given with each operation. C21_long shows that the 16-bit limit is needed: after a match of 65531 bytes or more, the end of the match is read as its display text. C21_one_strings: the match that is set apart has the match itself as display text and description."
  },
  {
   "property": "C22",
   "status": "proved",
   "theorems": [
    "Clink.Bind.C22_candidates",
    "Clink.Bind.C22_step",
    "Clink.Bind.C22_claims",
    "Clink.Bind.C22_params",
    "Clink.Bind.C22_other",
    "Clink.Bind.C22_defined",
    "Clink.Bind.C22_room",
    "Clink.Bind.C22_text",
    "Clink.Bind.C22_groups",
    "Clink.Bind.C22_is_bound",
    "Clink.Bind.C22_is_bound_prefix",
    "Clink.Bind.C22_is_bound_wrong",
    "Clink.Bind.C22_sixteen",
    "Clink.Bind.C22_high"
   ],
   "note": "The node array is proved to be a trie with lists of siblings for all sequences of calls. Violations are proved with witnesses: is_bound says that a bound chord that begins another one is not bound, and that a sequence is bound because of a key after the mismatch; chords of 16 or more keys and chords that end with a byte >= 0x80 are never reported; binding the empty chord twice reads before the buffer (C22_defined). What is reported when keys leave a chord after a parameter is not stated."
  },
  {
   "property": "C23",
   "status": "proved",
   "theorems": [
    "Clink.Color.C23_accepted",
    "Clink.Color.C23_meaning",
    "Clink.Color.C23_sgr",
    "Clink.Color.C23_round",
    "Clink.Color.C23_raw",
    "Clink.Color.C23_other",
    "Clink.Color.C23_empty_params",
    "Clink.Color.C23_overflow",
    "Clink.Color.C23_bright_on"
   ],
   "note": "C23_accepted and C23_meaning give the grammar and what it means; C23_round and C23_raw are the round trips. C23_empty_params and C23_overflow show why raw codes are restricted: an empty parameter means 0 to a terminal but is skipped when the code is formatted, and long numbers overflow a signed int. C23_bright_on records an oddity: bright before on makes the text white."
  },
  {
   "property": "C24",
   "status": "proved",
   "theorems": [
    "Clink.Settings.C24_selects",
    "Clink.Settings.C24_refused",
    "Clink.Settings.C24_name",
    "Clink.Settings.C24_round",
    "Clink.Settings.C24_prefix",
    "Clink.Settings.C24_comma"
   ],
   "note": "C24_prefix refutes the first wording (prefixes do not select); C24_comma shows why the last name must not be empty. atoi and CharLowerW are parameters; atoi is assumed to read decimal numbers and to saturate."
  },
  {
   "property": "C25",
   "status": "proved",
   "theorems": [
    "Clink.Settings.C25_reload",
    "Clink.Settings.C25_load",
    "Clink.Settings.C25_idempotent",
    "Clink.Settings.C25_value",
    "Clink.Settings.C25_default",
    "Clink.Settings.C25_unknown",
    "Clink.Settings.C25_says",
    "Clink.Settings.C25_set",
    "Clink.Settings.C25_refused",
    "Clink.Settings.C25_blank",
    "Clink.Settings.C25_newline",
    "Clink.Settings.C25_lost"
   ],
   "note": "C25_refused, C25_blank, C25_newline and C25_lost refute the first wording where settings are lost; C25_lost comes from settings.cpp:615-616, where flags are cleared on copies. The file format is stated separately (Lines, Says, Means). Colours must be ones that can be described (ColoursOk). Migration from the old settings file, ini files and the default settings file are not modelled."
  },
  {
   "property": "C26",
   "status": "proved",
   "theorems": [
    "Clink.Autorun.C26_foreign",
    "Clink.Autorun.C26_removed",
    "Clink.Autorun.C26_other",
    "Clink.Autorun.C26_install",
    "Clink.Autorun.C26_install_missing",
    "Clink.Autorun.C26_restore",
    "Clink.Autorun.C26_exact",
    "Clink.Autorun.C26_missing",
    "Clink.Autorun.C26_twice",
    "Clink.Autorun.C26_unquoted",
    "Clink.Autorun.C26_args",
    "Clink.Autorun.C26_type",
    "Clink.Autorun.C26_long",
    "Clink.Autorun.C26_root"
   ],
   "note": "C26_unquoted, C26_args, C26_type, C26_long and C26_root are witnesses where the first wording fails. The registry is one value with its type; conversion to UTF-16 and the enumeration of keys are not modelled."
  },
  {
   "property": "C27",
   "status": "proved",
   "theorems": [
    "Clink.Columns.C27_columns",
    "Clink.Columns.C27_fits",
    "Clink.Columns.C27_room",
    "Clink.Columns.C27_begins",
    "Clink.Columns.C27_once",
    "Clink.Columns.C27_order",
    "Clink.Columns.C27_most",
    "Clink.Columns.C27_ellipsifies",
    "Clink.Columns.C27_printed",
    "Clink.Columns.C27_wraps",
    "Clink.Columns.C27_wrapped",
    "Clink.Columns.C27_wide",
    "Clink.Columns.C27_same_width"
   ],
   "note": "Widths of matches are inputs; wrapping of 16 bit widths is modelled and C27_wide shows what it does to absurdly long matches. C27_ellipsifies provides the assumption of C27_printed about descriptions. C27_wraps and C27_wrapped are the negation of the claim for descriptions that are not right justified, C27_same_width for columns that are not fitted."
  },
  {
   "property": "C28",
   "status": "proved",
   "theorems": [
    "Clink.ScrollCar.C28_size",
    "Clink.ScrollCar.C28_inside",
    "Clink.ScrollCar.C28_top",
    "Clink.ScrollCar.C28_bottom",
    "Clink.ScrollCar.C28_mono",
    "Clink.ScrollCar.C28_position",
    "Clink.ScrollCar.C28_char",
    "Clink.ScrollCar.C28_hittest"
   ],
   "note": "Rounding of doubles is a parameter with two assumptions (Spec.Rounds); that IEEE doubles meet them is not proved."
  },
  {
   "property": "C29",
   "status": "proved",
   "theorems": [
    "Clink.StrCompare.C29_common_prefix",
    "Clink.StrCompare.C29_equal",
    "Clink.StrCompare.C29_equivalence",
    "Clink.StrCompare.C29_key_collapse",
    "Clink.StrCompare.C29_coarser",
    "Clink.StrCompare.C29_accent_lookup",
    "Clink.StrCompare.C29_identical_but_different"
   ],
   "note": "Equality needs completely decodable texts: C29_identical_but_different shows identical strings ending in an incomplete UTF-8 sequence reported as different."
  },
  {
   "property": "C30",
   "status": "proved",
   "theorems": [
    "Clink.Hist.C30_read",
    "Clink.Hist.C30_buffers",
    "Clink.Hist.C30_lines",
    "Clink.Hist.C30_sorted",
    "Clink.Hist.C30_unterminated",
    "Clink.Hist.C30_divided",
    "Clink.Hist.C30_hidden",
    "Clink.Hist.C30_stale_stamp"
   ],
   "note": "Reworded: conditions were added. C30_unterminated (the last line depends on the buffer), C30_divided (long lines), C30_hidden (a long tag line hides the line after it) show what happens without them; C30_stale_stamp shows that the timestamp of a removed line goes to the next line. C30_lines says what the lines of a file are, without reference to the reader."
  },
  {
   "property": "C31",
   "status": "proved",
   "theorems": [
    "Clink.Hist.C31_add",
    "Clink.Hist.C31_stamp",
    "Clink.Hist.C31_bar"
   ],
   "note": "Conditions added. C31_bar: a line that starts with the deletion mark is written but never seen. Ready in Spec/HistWorld says what files in order are."
  },
  {
   "property": "C32",
   "status": "proved",
   "theorems": [
    "Clink.Hist.C32_remove",
    "Clink.Hist.C32_fake_stamp",
    "Clink.Hist.C32_not_refused"
   ],
   "note": "Reworded: that a second removal is refused is false (C32_not_refused); it changes nothing. C32_fake_stamp: removing a line whose text after the first byte looks like a timestamp gives the next line a timestamp. The map from readline's indices to ids (m_index_map) is not modelled."
  },
  {
   "property": "C33",
   "status": "proved",
   "theorems": [
    "Clink.Hist.C33_kept",
    "Clink.Hist.C33_present",
    "Clink.Hist.C33_added",
    "Clink.Hist.C33_duplicates",
    "Clink.Hist.C33_no_master"
   ],
   "note": "The steps are the locked operations of HistDb; executions start with a tagged master file and no sessions, and new tags are fresh. C33_duplicates and C33_no_master are executions that lose lines."
  },
  {
   "property": "C34",
   "status": "proved",
   "theorems": [
    "Clink.Hist.C34_view",
    "Clink.Hist.C34_deleted",
    "Clink.Hist.C34_compact",
    "Clink.Hist.C34_hidden",
    "Clink.Hist.C34_moved",
    "Clink.Hist.C34_applied",
    "Clink.Hist.C34_stale"
   ],
   "note": "Same executions; opening a session assumes that there is no old file of removals, and C34_stale shows what happens otherwise."
  },
  {
   "property": "C35",
   "status": "proved",
   "theorems": [
    "Clink.Hist.C35_keeps",
    "Clink.Hist.C35_newest",
    "Clink.Hist.C35_lost",
    "Clink.Hist.C35_lost_witness",
    "Clink.Hist.C35_remap",
    "Clink.Hist.C35_distinct"
   ],
   "note": "Reworded: the first wording is false of the code. C35_lost: all history is lost when the limit is between the number of different lines and the number of lines, because the start index wraps around. Covers rewrite_master_bank."
  },
  {
   "property": "C36",
   "status": "proved",
   "theorems": [
    "Clink.Hist.C36_torn",
    "Clink.Hist.C36_joined"
   ],
   "note": "C36_joined shows that the line appended after the crash is joined to the incomplete one, so one more line is damaged later."
  },
  {
   "property": "C37",
   "status": "proved",
   "theorems": [
    "Clink.Hist.C37_add",
    "Clink.Hist.C37_add_run",
    "Clink.Hist.C37_ignore_run",
    "Clink.Hist.C37_erase_run",
    "Clink.Hist.C37_after_clear"
   ],
   "note": "Conditions added. C37_after_clear: once the session has cleared the history, its file of removals has no tag, so it is ignored and duplicates remain."
  },
  {
   "property": "C38",
   "status": "proved",
   "theorems": [
    "Clink.WordClass.C38_safe",
    "Clink.WordClass.C38_codes",
    "Clink.WordClass.C38_output",
    "Clink.WordClass.C38_refused",
    "Clink.WordClass.C38_apply",
    "Clink.WordClass.C38_shown",
    "Clink.WordClass.C38_painted",
    "Clink.WordClass.C38_equals",
    "Clink.WordClass.C38_classify",
    "Clink.WordClass.C38_applycolor",
    "Clink.WordClass.C38_letters",
    "Clink.WordClass.C38_classifyword",
    "Clink.WordClass.C38_classifyword_m",
    "Clink.WordClass.C38_empty_fails",
    "Clink.WordClass.C38_case_fails",
    "Clink.WordClass.C38_nul_fails"
   ],
   "note": "\"distinct colours get distinct codes\" is refuted for colours that differ in letter case only (C38_case_fails) and proved otherwise (C38_codes); undefined behaviour after an empty colour is shown (C38_empty_fails)."
  },
  {
   "property": "C39",
   "status": "proved",
   "theorems": [
    "Clink.Recog.C39_never_orphaned",
    "Clink.Recog.C39_pending",
    "Clink.Recog.C39_stops",
    "Clink.Recog.C39_wait",
    "Clink.Recog.C39_answer",
    "Clink.Recog.C39_refresh",
    "Clink.Recog.C39_quiet",
    "Clink.Recog.C39_shutdown",
    "Clink.Recog.C39_shutdown_twice"
   ],
   "note": "Inductive invariant of an interleaving semantics of the input thread and the worker. C39_stops: a measure bounds the steps of the worker. C39_shutdown_twice: a witness that the second call of shutdown (app/src/loader/testbed.cpp:224 and 340) uses a closed handle. Not modelled: failing memory or thread creation, the search itself (any result), data races on busy()."
  },
  {
   "property": "C40",
   "status": "proved",
   "theorems": [
    "Clink.Recog.C40_answer",
    "Clink.Recog.C40_current",
    "Clink.Recog.C40_found",
    "Clink.Recog.C40_invalidated",
    "Clink.Recog.C40_stale"
   ],
   "note": "C40_current has the hypothesis that nothing is invalidated while the worker searches; C40_stale is a witness that without it a result requested before the invalidation is reported as current (recognizer.cpp:676-681 stores without checking)."
  },
  {
   "property": "C41",
   "status": "proved",
   "theorems": [
    "Clink.EnvExpand.C41_reads",
    "Clink.EnvExpand.C41_text",
    "Clink.EnvExpand.C41_undefined",
    "Clink.EnvExpand.C41_plain",
    "Clink.EnvExpand.C41_before",
    "Clink.EnvExpand.C41_cursor",
    "Clink.EnvExpand.C41_inside",
    "Clink.EnvExpand.C41_nonneg",
    "Clink.EnvExpand.C41_line",
    "Clink.EnvExpand.C41_set",
    "Clink.EnvExpand.C41_pseudo",
    "Clink.EnvExpand.C41_cursor_fails",
    "Clink.EnvExpand.C41_cursor_wrong"
   ],
   "note": "the claim about the cursor is refuted in general (C41_cursor_fails) and proved if at most the last replaced reference changes its length."
  },
  {
   "property": "C42",
   "status": "proved",
   "theorems": [
    "Clink.HistExpand.C42_quotes",
    "Clink.HistExpand.C42_runs",
    "Clink.HistExpand.C42_plain",
    "Clink.HistExpand.C42_on_off",
    "Clink.HistExpand.C42_apostrophe_expands",
    "Clink.HistExpand.C42_apostrophe_protects"
   ],
   "note": "Reworded: the first wording has no exception for mixed quotes and is false of the code, see C42_apostrophe_expands and C42_apostrophe_protects (echo \"it's !x\"). Only the callback is modelled, not readline's use of it."
  },
  {
   "property": "C43",
   "status": "proved",
   "theorems": [
    "Clink.Wakeup.C43_strip",
    "Clink.Wakeup.C43_strip_str",
    "Clink.Wakeup.C43_without",
    "Clink.Wakeup.C43_again",
    "Clink.Wakeup.C43_limit"
   ],
   "note": "C43_limit: with a limit before the end of the text, the rest of the text is lost when something was removed; no caller does this."
  },
  {
   "property": "C44",
   "status": "proved",
   "theorems": [
    "Clink.Settings.C44_overlay",
    "Clink.Settings.C44_set",
    "Clink.Settings.C44_session",
    "Clink.Settings.C44_session_overlay",
    "Clink.Settings.C44_colour",
    "Clink.Settings.C44_kept",
    "Clink.Settings.C44_null",
    "Clink.Settings.C44_clear_bool",
    "Clink.Settings.C44_clear_text",
    "Clink.Settings.C44_marked"
   ],
   "note": "The effect of one change is stated as a relation (Changes) in Spec/Sandbox.lean. Colours in the file must be describable (ColoursOk), names and values must fit on a line (ChangeOk). C44_colour, C44_kept, C44_null, C44_clear_bool, C44_clear_text and C44_marked are witnesses of wrong behaviour."
  },
  {
   "property": "C45",
   "status": "proved",
   "theorems": [
    "Clink.Display.C45_arranged",
    "Clink.Display.C45_unique",
    "Clink.Display.C45_rows",
    "Clink.Display.C45_cursor",
    "Clink.Display.C45_cursor_somewhere",
    "Clink.Display.C45_cursor_visible",
    "Clink.Display.C45_newline_off_screen",
    "Clink.Display.C45_other_control"
   ],
   "note": "The arrangement is stated on its own (Arranged in Spec/Display.lean): everything in order, newlines, room, and no needless row; what each row must hold is Holds. The tables of widths are parameters; U+0000 is no variant selector and the newline is a control character. Faces are a function of the position. Horizontal scrolling (horz_parse) is not modelled."
  },
  {
   "property": "C46",
   "status": "proved",
   "theorems": [
    "Clink.Display.C46_in_view",
    "Clink.Display.C46_not_at_edge",
    "Clink.Display.C46_stays",
    "Clink.Display.C46_least",
    "Clink.Display.C46_amount",
    "Clink.Display.C46_wrapped_out_of_view",
    "Clink.Display.C46_wrapped_shows_prompt",
    "Clink.Redraw.C46_mark_place",
    "Clink.Redraw.C46_on_last_mark"
   ],
   "note": "Rows other than the first start at column 0. \"off the marks\" is refuted for the mark at the end (C46_on_last_mark) and proved for the one at the start (C46_not_at_edge). The place of the mark at the end is proved for characters of their own (no combined emojis). The statement is false for a prompt whose last line needs several rows, shown by witnesses."
  },
  {
   "property": "C47",
   "status": "proved",
   "theorems": [
    "Clink.Display.C47_click",
    "Clink.Display.C47_behind",
    "Clink.Display.C47_prompt",
    "Clink.Display.C47_outside",
    "Clink.Display.C47_newline_wrong",
    "Clink.Display.C47_split_wrong",
    "Clink.Display.C47_wrapped_wrong"
   ],
   "note": "The cells are those of the arrangement of C45. Without horizontal scrolling. The position of the console's cursor and the scroll offset are parameters. The statement is false with newlines, control characters on two rows and wrapped prompts, shown by witnesses."
  },
  {
   "property": "C48",
   "status": "proved",
   "theorems": [
    "Clink.Redraw.C48_update",
    "Clink.Redraw.C48_again",
    "Clink.Redraw.C48_rows",
    "Clink.Redraw.C48_end_lost",
    "Clink.Redraw.C48_reads_before",
    "Clink.Redraw.C48_mark_empty",
    "Clink.Redraw.C48_mark_wide"
   ],
   "note": "The terminal is a relation (Step in Spec/Redraw.lean) that leaves open what becomes of characters that are cut. Without the rprompt, without horizontal scrolling and the work around for it. If clearing to the end of the row is allowed, the new row must not start with a space, and must not get shorter if it has two spaces in a row; the witnesses show why. Characters without width and rows with marks are not covered by C48_rows."
  },
  {
   "property": "C49",
   "status": "proved",
   "theorems": [
    "Clink.Stream.C49_run",
    "Clink.Stream.C49_modes",
    "Clink.Stream.C49_text",
    "Clink.Stream.C49_round",
    "Clink.Stream.C49_gap_violated",
    "Clink.Stream.C49_empty_violated",
    "Clink.Stream.C49_zero_violated",
    "Clink.Stream.C49_seek_violated",
    "Clink.Stream.C49_cr_violated",
    "Clink.Stream.C49_nul_violated",
    "Clink.Stream.C49_number_violated"
   ],
   "note": "The specification (Spec/Stream.lean) is a relation on files and handles; it leaves open what the code does wrong, and each such place has a witness. Allocation succeeds; sscanf is a parameter that reads at most the text. lines, flush, setvbuf and __tostring are not modelled."
  },
  {
   "property": "C50",
   "status": "proved",
   "theorems": [
    "Clink.Intercept.C50_intercept",
    "Clink.Intercept.C50_token",
    "Clink.Intercept.C50_dash",
    "Clink.Intercept.C50_dots",
    "Clink.Intercept.C50_quoted",
    "Clink.Intercept.C50_colour",
    "Clink.Intercept.C50_previous",
    "Clink.Intercept.C50_history",
    "Clink.Intercept.C50_add",
    "Clink.Intercept.C50_erase",
    "Clink.Intercept.C50_caret_violated",
    "Clink.Intercept.C50_caret_quote_violated",
    "Clink.Intercept.C50_drive_letter"
   ],
   "note": "C50_intercept is an equivalence between the code and a relation in Spec/Intercept.lean. The operating system (expanding variables and ~, what is a directory, aliases) is a parameter. C50_quoted assumes that expanding gives no quotes."
  },
  {
   "property": "C51",
   "status": "proved",
   "theorems": [
    "Clink.Attributes.C51_merge",
    "Clink.Attributes.C51_diff",
    "Clink.Attributes.C51_decode",
    "Clink.Attributes.C51_sgr",
    "Clink.Attributes.C51_sequence",
    "Clink.Attributes.C51_flush",
    "Clink.Attributes.C51_printer",
    "Clink.Attributes.C51_console",
    "Clink.Attributes.C51_screen",
    "Clink.Attributes.C51_end",
    "Clink.Attributes.C51_lost_violated",
    "Clink.Attributes.C51_reverse_violated",
    "Clink.Attributes.C51_rgb_violated",
    "Clink.Attributes.C51_text_violated",
    "Clink.Attributes.C51_console_violated"
   ],
   "note": "C51_sgr, C51_sequence, C51_flush and C51_console are equivalences. The nearest colour in the palette is a parameter. C51_printer is for the looks described by Tame in Spec/Attributes.lean; the witnesses show that it is false for others."
  },
  {
   "property": "C52",
   "status": "proved",
   "theorems": [
    "Clink.Suggest.C52_set",
    "Clink.Suggest.C52_visible",
    "Clink.Suggest.C52_end",
    "Clink.Suggest.C52_word",
    "Clink.Suggest.C52_next",
    "Clink.Suggest.C52_words",
    "Clink.Suggest.C52_ask",
    "Clink.Suggest.C52_not_asked",
    "Clink.Suggest.C52_refused",
    "Clink.Suggest.C52_not_inline",
    "Clink.Suggest.C52_remove",
    "Clink.Suggest.C52_again_violated",
    "Clink.Suggest.C52_slash_violated",
    "Clink.Suggest.C52_hang_violated",
    "Clink.Suggest.C52_cut_violated",
    "Clink.Suggest.C52_stale_violated",
    "Clink.Suggest.C52_quote_violated",
    "Clink.Suggest.C52_remove_violated"
   ],
   "note": "C52_set and C52_visible are equivalences. Ready in Spec/Suggest.lean is the state after C52_set and is kept by C52_word and C52_next. C52_word, C52_next and C52_words need Even: the same number of bytes before the replaced text, and no quotes between the word and a later suggestion; the witnesses show that they are false without."
  },
  {
   "property": "C53",
   "status": "proved",
   "theorems": [
    "Clink.Menu.C53_grid",
    "Clink.Menu.C53_selected",
    "Clink.Menu.C53_room",
    "Clink.Menu.C53_rows",
    "Clink.Menu.C53_more",
    "Clink.Menu.C53_visible",
    "Clink.Menu.C53_screen",
    "Clink.Menu.C53_highlight",
    "Clink.Menu.C53_next",
    "Clink.Menu.C53_prev",
    "Clink.Menu.C53_right",
    "Clink.Menu.C53_down",
    "Clink.Menu.C53_left",
    "Clink.Menu.C53_up",
    "Clink.Menu.C53_latched",
    "Clink.Menu.C53_pageUp",
    "Clink.Menu.C53_pageDown",
    "Clink.Menu.C53_first_last",
    "Clink.Menu.C53_wheelUp",
    "Clink.Menu.C53_wheelDown",
    "Clink.Menu.C53_click",
    "Clink.Menu.C53_typed",
    "Clink.Menu.C53_line",
    "Clink.Menu.C53_closed",
    "Clink.Menu.C53_few_violated",
    "Clink.Menu.C53_bar_violated",
    "Clink.Menu.C53_lower_violated",
    "Clink.Menu.C53_resize_violated",
    "Clink.Menu.C53_typed_violated",
    "Clink.Menu.C53_wheel_violated",
    "Clink.Menu.C53_stuck_violated",
    "Clink.Menu.C53_beside_violated",
    "Clink.Menu.C53_preview_violated"
   ],
   "note": "Reach in Spec/Menu.lean is everything that can be reached by Valid input; CalmReach, for the screen only, also excludes what the witnesses are about: a line whose height changes, a change of the terminal, and TameMouse. ItemsOk excludes more columns than matches in a horizontal list; C53_few_violated shows what happens then."
  },
  {
   "property": "C54",
   "status": "proved",
   "theorems": [
    "Clink.Tasks.C54_called",
    "Clink.Tasks.C54_right",
    "Clink.Tasks.C54_released",
    "Clink.Tasks.C54_event",
    "Clink.Tasks.C54_other",
    "Clink.Tasks.C54_late",
    "Clink.Tasks.C54_keys",
    "Clink.Tasks.C54_joined",
    "Clink.Tasks.C54_answer",
    "Clink.Tasks.C54_result",
    "Clink.Tasks.C54_cancelled",
    "Clink.Tasks.C54_wait",
    "Clink.Tasks.C54_stuck",
    "Clink.Tasks.C54_overlap",
    "Clink.Tasks.C54_freed",
    "Clink.Tasks.C54_lost_violated",
    "Clink.Tasks.C54_right_violated",
    "Clink.Tasks.C54_race_violated",
    "Clink.Tasks.C54_sleep_violated",
    "Clink.Tasks.C54_shares_violated",
    "Clink.Tasks.C54_freed_violated"
   ],
   "note": "Reach Any in Spec/Tasks.lean is everything that can be reached in any order of the steps. C54_right needs that no Lua state ends while there are callbacks to free (Calm); C54_right_violated shows what happens otherwise. C54_freed needs that nothing is collected (Keeps)."
  },
  {
   "property": "C55",
   "status": "proved",
   "theorems": [
    "Clink.Abbrev.C55_unique",
    "Clink.Abbrev.C55_ambiguous",
    "Clink.Abbrev.C55_missing",
    "Clink.Abbrev.C55_cases",
    "Clink.Abbrev.C55_remote",
    "Clink.Abbrev.C55_plain_name",
    "Clink.Abbrev.C55_share",
    "Clink.Abbrev.C55_in_bounds",
    "Clink.Abbrev.C55_quotes",
    "Clink.Abbrev.C55_begins",
    "Clink.Abbrev.C55_two",
    "Clink.Abbrev.C55_third_violated",
    "Clink.Abbrev.C55_exact_violated",
    "Clink.Abbrev.C55_quotes_violated",
    "Clink.Abbrev.C55_dot_violated",
    "Clink.Abbrev.C55_order_violated",
    "Clink.Abbrev.C55_shorter_violated",
    "Clink.Abbrev.C55_file_violated",
    "Clink.Abbrev.C55_double_violated"
   ],
   "note": "Shows says that the environment lists what is on a disk, with names that are plain text. C55_cases says that the three theorems C55_unique, C55_ambiguous and C55_missing cover every path that is Typed.Ok."
  },
  {
   "property": "C56",
   "status": "proved",
   "theorems": [
    "Clink.TermIn.C56_stream",
    "Clink.TermIn.C56_nothing_lost",
    "Clink.TermIn.C56_live",
    "Clink.TermIn.C56_available",
    "Clink.TermIn.C56_peek",
    "Clink.TermIn.C56_text",
    "Clink.TermIn.C56_typed",
    "Clink.TermIn.C56_alt",
    "Clink.TermIn.C56_ctrl",
    "Clink.TermIn.C56_keys",
    "Clink.TermIn.C56_distinct",
    "Clink.TermIn.C56_esc",
    "Clink.TermIn.C56_editing",
    "Clink.TermIn.C56_click_violated",
    "Clink.TermIn.C56_order_violated",
    "Clink.TermIn.C56_peek_violated",
    "Clink.TermIn.C56_promise_violated",
    "Clink.TermIn.C56_translate_violated"
   ],
   "note": "Gives says what bytes a list of records gives, record by record; C56_text, C56_alt, C56_ctrl and C56_keys say what that is for the keys in question. Calm leaves out callbacks that ask for input (C56_order_violated); Plain leaves out replacements that are not ASCII (C56_translate_violated); Gives has no mouse input that is accepted (C56_click_violated)."
  },
  {
   "property": "C57",
   "status": "proved",
   "theorems": [
    "Clink.MatchColors.C57_color",
    "Clink.MatchColors.C57_word",
    "Clink.MatchColors.C57_command",
    "Clink.MatchColors.C57_prefix",
    "Clink.MatchColors.C57_error",
    "Clink.MatchColors.C57_unique",
    "Clink.MatchColors.C57_types_violated",
    "Clink.MatchColors.C57_quoted_violated",
    "Clink.MatchColors.C57_no_violated",
    "Clink.MatchColors.C57_any_violated",
    "Clink.MatchColors.C57_blank_violated",
    "Clink.MatchColors.C57_empty_violated",
    "Clink.MatchColors.C57_hidden_violated",
    "Clink.MatchColors.C57_link_violated",
    "Clink.MatchColors.C57_default_violated",
    "Clink.MatchColors.C57_class_violated"
   ],
   "note": "Usable leaves out rules which the code does not treat as documented: with mi, or and so (C57_types_violated), no with other conditions (C57_no_violated), any alone (C57_any_violated). Says leaves out a quoted not (C57_quoted_violated). The defaults and the name of links are those of the code (C57_default_violated, C57_link_violated). What is shown for hidden entries is what the code does (C57_hidden_violated)."
  },
  {
   "property": "C58",
   "status": "proved",
   "theorems": [
    "Clink.TermReq.C58_order",
    "Clink.TermReq.C58_honest",
    "Clink.TermReq.C58_kept",
    "Clink.TermReq.C58_answer",
    "Clink.TermReq.C58_pair_violated",
    "Clink.TermReq.C58_esc_violated",
    "Clink.TermReq.C58_nul_violated",
    "Clink.TermReq.C58_osc_violated",
    "Clink.TermReq.C58_alt_violated"
   ],
   "note": "Alone leaves out halves of surrogate pairs (C58_pair_violated); Typed leaves out the Esc key (C58_esc_violated), NUL (C58_nul_violated) and codes that are not complete within one key (C58_alt_violated); Csi leaves out other answers (C58_osc_violated). C58_answer supposes that all records up to the end of the answer come before each time limit, that fewer than 16384 records wait, and that what is read is not longer than 65471 bytes."
  },
  {
   "property": "C59",
   "status": "proved",
   "theorems": [
    "Clink.ErrFile.C59_bytes",
    "Clink.ErrFile.C59_wide",
    "Clink.ErrFile.C59_errorlevel",
    "Clink.ErrFile.C59_long_violated",
    "Clink.ErrFile.C59_ff_violated",
    "Clink.ErrFile.C59_one_violated"
   ],
   "note": "The limits of C59_bytes are the places where the code is wrong (C59_long_violated, C59_ff_violated); that of C59_wide too (C59_one_violated). In the default build only the first line is read, which is a number; the long lines are the directory stack (CAPTURE_PUSHD_STACK). A NUL ends a line in the code; no theorem says something about files with NUL."
  },
  {
   "property": "C60",
   "status": "proved",
   "theorems": [
    "Clink.Wrap.C60_plain",
    "Clink.Wrap.C60_unique",
    "Clink.Wrap.C60_lines",
    "Clink.Wrap.C60_stuck",
    "Clink.Wrap.C60_code_lost_violated",
    "Clink.Wrap.C60_code_torn_violated",
    "Clink.Wrap.C60_code_end_violated",
    "Clink.Wrap.C60_code_start_violated"
   ],
   "note": "C60_lines is C60_plain for plain characters without the relation of the specification. The hypothesis that no character is wider than a line is needed (C60_stuck). Text with control codes is only in the witnesses: the code is wrong for it, and no theorem says for which texts with codes it is right."
  },
  {
   "property": "C61",
   "status": "proved",
   "theorems": [
    "Clink.WcWidth.C61_search",
    "Clink.WcWidth.C61_tables",
    "Clink.WcWidth.C61_width",
    "Clink.WcWidth.C61_mark",
    "Clink.WcWidth.C61_jamo",
    "Clink.WcWidth.C61_ucs2",
    "Clink.WcWidth.C61_others",
    "Clink.WcWidth.C61_ambiguous",
    "Clink.WcWidth.C61_auto",
    "Clink.WcWidth.C61_auto_violated",
    "Clink.WcWidth.C61_unicode_violated",
    "Clink.WcWidth.C61_ascii",
    "Clink.WcWidth.C61_wrap"
   ],
   "note": "The tables of the code are part of the model, copied by a script; only the wide characters are stated separately, as a list of intervals. That the tables agree with Unicode is not claimed, and C61_unicode_violated shows characters for which they do not. What a font measures is a parameter."
  },
  {
   "property": "C62",
   "status": "proved",
   "theorems": [
    "Clink.Pager.C62_order",
    "Clink.Pager.C62_stop",
    "Clink.Pager.C62_first",
    "Clink.Pager.C62_next",
    "Clink.Pager.C62_lines",
    "Clink.Pager.C62_screen",
    "Clink.Pager.C62_small",
    "Clink.Pager.C62_screen_violated",
    "Clink.Pager.C62_again_violated",
    "Clink.Pager.C62_grid",
    "Clink.Pager.C62_place",
    "Clink.Pager.C62_matches_all",
    "Clink.Pager.C62_matches_first",
    "Clink.Pager.C62_matches_next"
   ],
   "note": "Items have a number of lines that the callers compute; that the text really takes so many lines is not claimed. C62_matches_first and C62_matches_next are about the loop over rows that showMatches starts with 0 lines; every row has at least one line in the code."
  },
  {
   "property": "C63",
   "status": "proved",
   "theorems": [
    "Clink.FindLine.C63_start",
    "Clink.FindLine.C63_prev_text",
    "Clink.FindLine.C63_next_text",
    "Clink.FindLine.C63_prev_attr",
    "Clink.FindLine.C63_next_attr",
    "Clink.FindLine.C63_prev_regex",
    "Clink.FindLine.C63_next_regex",
    "Clink.FindLine.C63_bottom",
    "Clink.FindLine.C63_bottom_violated",
    "Clink.FindLine.C63_beyond",
    "Clink.FindLine.C63_invalid_violated",
    "Clink.FindLine.C63_icase_violated",
    "Clink.FindLine.C63_both_violated",
    "Clink.FindLine.C63_attrs_violated"
   ],
   "note": "The searches with a text are for screens without null characters, because wcsstr stops there. Starting lines are within -32767 ... 32768, since the code narrows them to 16 bits; a screen buffer has at most 32767 lines."
  },
  {
   "property": "C64",
   "status": "proved",
   "theorems": [
    "Clink.Sticky.C64_reuse",
    "Clink.Sticky.C64_down",
    "Clink.Sticky.C64_up",
    "Clink.Sticky.C64_replay",
    "Clink.Sticky.C64_off",
    "Clink.Sticky.C64_kept",
    "Clink.Sticky.C64_browse",
    "Clink.Sticky.C64_lost_violated",
    "Clink.Sticky.C64_browse_violated"
   ],
   "note": "C64_kept needs that Up is not pressed more often than there are entries above the first position, which C64_lost_violated shows to be necessary. Whether a line that is to be added is really added (excluded commands, duplicates) is the subject of C31 and C37."
  },
  {
   "property": "C65",
   "status": "proved",
   "theorems": [
    "Clink.Scroll.C65_line",
    "Clink.Scroll.C65_page",
    "Clink.Scroll.C65_end",
    "Clink.Scroll.C65_absolute",
    "Clink.Scroll.C65_back",
    "Clink.Scroll.C65_absolute_violated",
    "Clink.Scroll.C65_line_violated",
    "Clink.Scroll.C65_page_violated",
    "Clink.Scroll.C65_down_violated"
   ],
   "note": "SetConsoleWindowInfo succeeds for a window that is allowed (a hypothesis), and sets exactly the window given. C65_absolute excludes line 2, for which C65_absolute_violated shows the contrary."
  },
  {
   "property": "C66",
   "status": "proved",
   "theorems": [
    "Clink.Scripts.C66_install",
    "Clink.Scripts.C66_uninstall",
    "Clink.Scripts.C66_refused",
    "Clink.Scripts.C66_list",
    "Clink.Scripts.C66_all",
    "Clink.Scripts.C66_run",
    "Clink.Scripts.C66_undo",
    "Clink.Scripts.C66_all_violated",
    "Clink.Scripts.C66_empty_violated"
   ],
   "note": "Texts are of Unicode scalar values other than NUL. Which paths are the same is `key` of C29. C66_all_violated and C66_empty_violated show the contrary of what the messages say."
  },
  {
   "property": "C67",
   "status": "proved",
   "theorems": [
    "Clink.KeyList.C67_order",
    "Clink.KeyList.C67_order_keys",
    "Clink.KeyList.C67_no_duplicates",
    "Clink.KeyList.C67_along",
    "Clink.KeyList.C67_down",
    "Clink.KeyList.C67_categories",
    "Clink.KeyList.C67_plain",
    "Clink.KeyList.C67_macro",
    "Clink.KeyList.C67_order_violated",
    "Clink.KeyList.C67_duplicates_violated",
    "Clink.KeyList.C67_down_violated"
   ],
   "note": "C67_down says exactly when the layout down the columns is right; the three theorems ending in _violated show where the code shows something else."
  },
  {
   "property": "C68",
   "status": "proved",
   "theorems": [
    "Clink.HistCmd.C68_command",
    "Clink.HistCmd.C68_wrong",
    "Clink.HistCmd.C68_help",
    "Clink.HistCmd.C68_delete",
    "Clink.HistCmd.C68_listed",
    "Clink.HistCmd.C68_show",
    "Clink.HistCmd.C68_show_violated",
    "Clink.HistCmd.C68_time_violated",
    "Clink.HistCmd.C68_add_violated",
    "Clink.HistCmd.C68_joined_violated",
    "Clink.HistCmd.C68_dash_violated",
    "Clink.HistCmd.C68_format_violated",
    "Clink.HistCmd.C68_number_violated"
   ],
   "note": "The theorems ending in _violated show where the code differs from the help and the documentation; C68_show says exactly when the options for times have their effect."
  },
  {
   "property": "C69",
   "status": "proved",
   "theorems": [
    "Clink.Log.C69_log",
    "Clink.Log.C69_more",
    "Clink.Log.C69_group",
    "Clink.Log.C69_quiet",
    "Clink.Log.C69_hex_violated",
    "Clink.Log.C69_first_violated"
   ],
   "note": "The two theorems ending in _violated show a format that is never used, and what happens in a release build when a group comes before the first message."
  },
  {
   "property": "C70",
   "status": "proved",
   "theorems": [
    "Clink.KeyNames.C70_round_trip",
    "Clink.KeyNames.C70_different",
    "Clink.KeyNames.C70_place",
    "Clink.KeyNames.C70_backslash_violated",
    "Clink.KeyNames.C70_backslash_taken_violated",
    "Clink.KeyNames.C70_meta_violated"
   ],
   "note": "The theorems ending in _violated show that the two exceptions in the hypothesis are there because the code fails for them."
  },
  {
   "property": "C71",
   "status": "proved",
   "theorems": [
    "Clink.TextList.C71_visible",
    "Clink.TextList.C71_reads",
    "Clink.TextList.C71_moves",
    "Clink.TextList.C71_click",
    "Clink.TextList.C71_pgup",
    "Clink.TextList.C71_pgdn",
    "Clink.TextList.C71_find",
    "Clink.TextList.C71_type",
    "Clink.TextList.C71_filtered",
    "Clink.TextList.C71_filter",
    "Clink.TextList.C71_unfilter",
    "Clink.TextList.C71_choice",
    "Clink.TextList.C71_copy",
    "Clink.TextList.C71_delete",
    "Clink.TextList.C71_pgdn_violated",
    "Clink.TextList.C71_pgdn_up_violated",
    "Clink.TextList.C71_pgup_violated",
    "Clink.TextList.C71_pgup_read_violated",
    "Clink.TextList.C71_copy_violated",
    "Clink.TextList.C71_delete_filtered_violated",
    "Clink.TextList.C71_unfilter_violated",
    "Clink.TextList.C71_wheel_violated",
    "Clink.TextList.C71_toggle_violated"
   ],
   "note": "The theorems ending in _violated show that each exception (`Trouble`, and the hypotheses of C71_pgup, C71_pgdn and C71_copy) is there because the code fails for it."
  },
  {
   "property": "C72",
   "status": "proved",
   "theorems": [
    "Clink.Glob.C72_make",
    "Clink.Glob.C72_once",
    "Clink.Glob.C72_older",
    "Clink.Glob.C72_older_negative",
    "Clink.Glob.C72_closed",
    "Clink.Glob.C72_lua",
    "Clink.Glob.C72_purge",
    "Clink.Glob.C72_type",
    "Clink.Glob.C72_size",
    "Clink.Glob.C72_orphaned_violated"
   ],
   "note": "The names that the disk gives have no separators and no zeros. C72_orphaned_violated shows that the directory used for links is not the one that is searched."
  },
  {
   "property": "C73",
   "status": "proved",
   "theorems": [
    "Clink.SuggList.C73_selected",
    "Clink.SuggList.C73_full",
    "Clink.SuggList.C73_moves",
    "Clink.SuggList.C73_pgup",
    "Clink.SuggList.C73_pgdn",
    "Clink.SuggList.C73_margin",
    "Clink.SuggList.C73_click",
    "Clink.SuggList.C73_wheel_violated",
    "Clink.SuggList.C73_pgdn_violated",
    "Clink.SuggList.C73_remove_violated",
    "Clink.SuggList.C73_regrow_violated",
    "Clink.SuggList.C73_negative_violated"
   ],
   "note": "Proved for all runs without the wheel turned up at the input line, with fewer than 2^31 suggestions; no empty rows without removals and while the list has a row. The other cases are refuted with witnesses."
  },
  {
   "property": "C74",
   "status": "proved",
   "theorems": [
    "Clink.Drag.C74_can",
    "Clink.Drag.C74_apart",
    "Clink.Drag.C74_speed",
    "Clink.Drag.C74_began",
    "Clink.Drag.C74_popup_violated",
    "Clink.Drag.C74_wrap_violated"
   ],
   "note": "The events of a list after clear. The speed is proved if scrolling began less than 2^32 milliseconds ago. C74_popup_violated is about every run without on_scroll, as in the popup list."
  }
 ]
}