#!/usr/bin/env python3
"""Writes ../properties.jsonl.  Kept as a script so that the file stays valid JSON Lines."""
import json, os
P = []
def p(id, title, statement, quantifier, why, anchors):
    P.append(dict(id=id, title=title, statement=statement, quantifier=quantifier, why_tests_cant=why, anchors=anchors))

p("C01", "UTF-8 text survives conversion and iteration",
  "Writing any sequence of non-NUL Unicode scalar values as UTF-8 with the UTF-16 to UTF-8 converter's encoder and then walking the bytes with the UTF-8 iterator yields exactly the same sequence of code points, and the iterator ends exactly at the end of the bytes.",
  "every finite sequence of code points 1..0x10FFFF excluding surrogates",
  "There are unboundedly many strings; decoding state carries across bytes, so sampled strings do not show that no combination of neighbouring sequences is misread.",
  ["clink/core/src/str_iter.cpp: str_iter_impl<char>::next", "clink/core/src/str_convert.cpp: to_utf8, builder<char>"])
p("C02", "UTF-16 to UTF-8 to UTF-16 is the identity on well-formed text",
  "For every well-formed NUL-free UTF-16 string (including surrogate pairs) converting to UTF-8 and back gives the same UTF-16 string; for every well-formed UTF-8 string converting to UTF-16 and back gives the same bytes. Appending one converted string to another equals converting the concatenation.",
  "every finite sequence of Unicode scalar values; every pair of such sequences",
  "The round trip quantifies over all strings; tests sample a few code points per length class.",
  ["clink/core/src/str_convert.cpp: to_utf8, to_utf16", "clink/core/src/str_iter.cpp: str_iter_impl<wchar_t>::next, str_iter_impl<char>::next"])
p("C03", "Iterating arbitrary bytes always progresses and never reads past the end",
  "For every byte buffer and length (valid UTF-8 or not) each step of the UTF-8 iterator consumes at least one byte while more bytes remain, never moves beyond the given length or past a NUL, and yields a value below 2^21; hence a full walk terminates and the consumed pieces concatenate to the input up to the first NUL. The UTF-16 iterator consumes one or two units per step and yields values at most 0x10FFFF, never a surrogate.",
  "every byte/unit buffer, including truncated and invalid sequences",
  "Safety over arbitrary (hostile) input: fuzzing samples, it cannot cover every malformed buffer.",
  ["clink/core/src/str_iter.cpp: next", "clink/core/include/core/str_iter.h: more, get_pointer, length"])
p("C04", "Conversion into a fixed buffer never overflows and is always terminated",
  "Converting any text into a caller-supplied buffer of N>0 units writes at most N units, the last written being NUL, and the text written before the NUL is a prefix of the unlimited conversion; calling with no buffer reports exactly the length the unlimited conversion would have.",
  "every input string and every buffer size",
  "Buffer overruns appear only at particular combinations of size and multi-unit boundaries.",
  ["clink/core/src/str_convert.cpp: builder, convert_impl/to_utf8/to_utf16"])
p("C05", "String buffer operations keep their contract at every capacity",
  "For every string object state and every operation sequence (clear, copy, concat, concat with a length, concat-without-truncation, truncate, trim): the stored text is always NUL-terminated within capacity; concat appends exactly the longest prefix that fits and returns true exactly when nothing was dropped; concat-without-truncation either appends everything or leaves the text unchanged; truncate to a position within the text keeps exactly that prefix; trim removes exactly the surrounding spaces. A growable string never exceeds the 16-bit length range and never wraps its capacity.",
  "every fixed or growable buffer, every reachable state, every operation sequence and argument",
  "Capacity rounding (64-unit granularity, 16-bit sizes) interacts with lengths; only some of 2^32 combinations hit the corner.",
  ["clink/core/include/core/str.h: str_impl::reserve, concat, concat_no_truncate, truncate, trim, length"])
p("C06", "Arena allocations never overlap and stay valid",
  "In every sequence of allocations from a linear allocator, each successful allocation gets a block inside memory obtained by the allocator, all blocks handed out since the last reset are pairwise disjoint, and a stored string still reads back the same after any later allocations and stores. Zero-size or failed requests change nothing.",
  "every page size and every sequence of alloc/store/reset/clear requests, including requests larger than a page",
  "Overlap arises only for specific sequences of sizes relative to the page size; the state space is unbounded.",
  ["clink/core/src/linear_allocator.cpp: alloc, store, reset, clear, new_page", "clink/core/include/core/linear_allocator.h"])
p("C07", "Wildcard matching never reports a false match",
  "Whenever the wildcard matcher says a file name matches a pattern, the name really is an instance of the pattern: a group of wildcards beginning with '*' stands for some run of characters without separators (or for anything, in the modes where stars match everything), '?' for one character other than a separator or for nothing at the end of the name, runs of '/' and '\\' match each other, everything else matches itself up to the comparison mode, and leading dots of the last component are left out only when dot prefixes are allowed.",
  "every pattern and every path text",
  "Backtracking state makes matcher behaviour depend on the whole input; samples cannot exclude false positives.",
  ["clink/core/include/core/match_wild.h: path::match_wild"])
p("C08", "Wildcard matching finds every match",
  "If a text is an instance of a pattern, the pattern has at most ten groups of wildcards with a star, and neither has two separators in a row, then the matcher reports a match. Both limits are needed: beyond them there are instances that are rejected.",
  "every pattern and every text that is an instance of it",
  "Completeness of a search quantifies over all assignments of runs to stars.",
  ["clink/core/include/core/match_wild.h: path::match_wild"])
p("C09", "Path normalisation is safe and idempotent",
  "Normalising a path in place never makes it longer and touches nothing outside the string (reading one byte in front of it unless it has a drive, UNC or separator prefix). The drive or UNC prefix is kept; behind it '.' and '..' are resolved, so that '..' is only left in front of a relative path, separators are single and of the requested kind, trailing separators or names stay, and normalising again changes nothing. Exceptions, each shown by a theorem: relative paths with names that begin with a dot, repeated separators inside a UNC prefix, device paths.",
  "every path string and separator choice, including UNC and drive prefixes",
  "In-place editing with moving read/write pointers; sampled paths cannot show absence of out-of-bounds access or stale tails.",
  ["clink/core/src/path.cpp: path::normalise"])
p("C10", "Joining paths and taking parents are inverse",
  "Appending a plain file name to any directory and then asking for the name or the directory gives back that file name and that directory (up to a trailing separator); taking the parent splits any path into parent, separators, last component, separators, and going up repeatedly terminates at a root; a step that changes nothing happens only at a root. (The parent of \\x is the empty path, so joining it again gives a relative path; shown by a theorem.)",
  "every directory string and every separator-free non-empty name; every path",
  "Edge cases (drive-relative 'c:', roots, trailing separators, UNC) are combinatorial.",
  ["clink/core/src/path.cpp: path::append, path::to_parent, path::get_directory, path::get_name"])
p("C11", "Lines whose first word is no alias are left untouched by doskey resolution",
  "Resolving a line against the doskey table yields no replacement when no piece of the line starts with a defined alias, and pieces without an alias are copied into the output unchanged and in order; only a call (blanks, @ and parentheses, then the name of a defined alias) is replaced, and in enhanced mode what follows a command separator is treated as a line of its own.",
  "every well-formed UTF-8 line of less than 32768 bytes and every alias table",
  "Must hold for all user input, aliases come from arbitrary user configuration.",
  ["clink/lib/src/doskey.cpp: doskey::resolve, doskey::resolve_impl"])
p("C12", "Doskey macros expand per the documented $-tags",
  "For an alias call, the expansion of the macro body is the body with $1..$9 replaced by the corresponding argument (nothing if absent), $* by everything from the first argument on, $$ by a dollar, $g/$l/$b by > < |, $t by a line feed, unknown tags and all other text literally, in order. Arguments are the words between spaces (outside quotes in enhanced mode), up to the end of the command (enhanced) or of the line.",
  "every macro body and every argument text with arguments below 32768 bytes",
  "Bodies and arguments are arbitrary; a tag parser has to be right for every interleaving of tags and text.",
  ["clink/lib/src/doskey.cpp: doskey::resolve_impl, stream handling"])
p("C13", "Multi-line input is delivered exactly once and in order",
  "When text is queued behind and in front of the input queue and taken from it by lines or by characters in any mixture, what is delivered is exactly the queued text in order, none lost, duplicated or merged: the queue behaves like a queue of lines of characters, where text behind an unfinished line continues that line. When the first line is an alias for several commands, these are delivered first, in order.",
  "every sequence of enqueue and dequeue operations and all well-formed line contents",
  "Delivery depends on the history of partial reads and the queue state.",
  ["clink/lib/src/line_queue.cpp: line_queue::enqueue_back, enqueue_front, dequeue_line, dequeue_char"])
p("C14", "Command ranges partition the input line",
  "Splitting a line into commands always ends, with ranges that lie inside the line, in increasing order and without overlap. For well-formed text, what lies between two ranges is one separator (& or |, or two of the same) with blanks and parentheses, and a separator inside a range is quoted, escaped by a caret, part of the redirection of a numbered handle, behind the name rem, or before the name of the command; a line is not split in quotes, after a plain redirection of a handle, in a plain remark, or before the command has started, and none of the exceptions for remarks applies after an alias.",
  "every line, every quote and caret placement, every alias table",
  "State machine over arbitrary text: quoting, carets and redirections interact.",
  ["clink/lib/src/cmd_tokenisers.cpp: cmd_command_tokeniser::next", "clink/lib/src/cmd_tokenisers.h"])
p("C15", "Words reported to completion lie inside the line, in order",
  "The words computed for a line shorter than 65536 bytes are ordered by offset, do not overlap (unless a plus sign follows a space), and lie inside the line; in the analysis up to the cursor the last word ends at the cursor, or at the closing quote just before it. For well-formed text the words are exactly those of a grammar: separators, quotes, carets, redirections and their targets, names of the interpreter's own commands that end at a punctuation character, aliases, flags that end at a colon, and the empty word added at the cursor; each word is reported with its offset, length, delimiter, and whether it is a command, an alias, the target of a redirection, or quoted. The grammar gives each line only one reading.",
  "every line and cursor position; for the grammar, every line of well-formed text, all aliases with ASCII names, and every text behind the cursor",
  "Offsets feed directly into unchecked buffer accesses by completion; all lines matter.",
  ["clink/lib/src/cmd_tokenisers.cpp: cmd_word_tokeniser::next", "clink/lib/src/word_collector.cpp: word_collector::collect_words"])
p("C16", "Escape-sequence parsing partitions terminal output independently of chunking",
  "Walking terminal output with the escape-sequence iterator terminates for every text. For texts of at most 65471 bytes the pieces are consecutive parts of the text, in order, without overlap and within the text; each piece is a complete code of the reported kind and number, a run of text, or an escape character that starts nothing with the text behind it; only the beginnings of codes that are broken off by a character that cannot continue them are left out; and plain text without control characters is returned verbatim as one piece. When the text arrives in several parts, a code that is cut is completed by the next part, except for strings within strings and an escape character that starts nothing.",
  "every byte string of at most 65471 bytes, and every way to cut a well-formed text into parts",
  "Parsers of hostile terminal output must not depend on sampled sequences.",
  ["clink/terminal/src/ecma48_iter.cpp: ecma48_iter::next and its state handlers"])
p("C17", "Ellipsified text never exceeds the requested width",
  "Fitting any bytes into N cells (N >= 0 for ellipsify_ex, N >= 1 for ellipsify) terminates and reports a width between 0 and N, for left, right and path modes and any ellipsis. For text all of whose control codes are complete, the result is again such a text and the reported width is its width, counted by grapheme: combining marks, flags, emoji sequences with variant selectors and joiners. For left and path modes this requires text without variant selectors, for path mode that control characters are not expanded; the violations otherwise are proved: a selector behind the cut joins the ellipsis and the result can be wider than N; path mode ignores expand_ctrl; control characters are never counted; ellipsify into 0 cells yields one cell; a negative N on the left yields the whole text.",
  "every byte string for the reported width; every text of at most 65471 bytes with complete codes for the real width; every N, mode and ellipsis; all width tables",
  "Wide characters straddling the limit only show for particular alignments.",
  ["clink/lib/src/ellipsify.cpp: ellipsify, ellipsify_ex", "clink/terminal/src/wcwidth_iter.cpp"])
p("C18", "Ellipsifying keeps text that fits and otherwise cuts at one place",
  "Text with complete codes that fits is returned unchanged in every mode. Otherwise right mode yields everything before the first character behind which the ellipsis has no room, codes included, with as much of the ellipsis as fits; left mode yields all codes before the cut, the ellipsis, and everything behind the last character before which the ellipsis has no room. Path mode keeps a drive (letter, colon, codes between them) if the drive and the ellipsis fit and cuts the rest on the left, and otherwise does the same as right mode. ellipsify does the same as right mode with an ellipsis of one cell. Violations proved: ellipsify drops an incomplete code at the end of text that fits; in left mode a code behind a broken code is replaced by bytes of the broken one.",
  "every text of at most 65471 bytes with complete codes, every limit, mode, ellipsis of plain characters and all width tables",
  "Universal over strings and widths.",
  ["clink/lib/src/ellipsify.cpp: ellipsify, ellipsify_ex"])
p("C19", "Duplicate completions are dropped, everything else is kept",
  "After any sequence of add-match calls, with changes of the slash mode and of whether file names are completed between them, the match list holds, in the order in which they were added, exactly the matches that are not the same as one kept before. Empty texts are rejected. Unknown matches that end with a separator become directories, directories get a separator, and separators are translated before the comparison. Two matches are the same if their texts are equal and their types are equal or one of them comes from the history. Without matches from the history this means the first of each distinct (text, type). add_match returns whether the match was kept, and display, description, append character and flags are stored with it. When the list is complete, unknown matches become files or directories, others stay as they are, and a match is dropped only if it has become the same as one that is left; every directory then ends with a separator unless it is a drive. Violations are proved as such: the count has 16 bits, it is not adjusted when done_building drops a match, and in automatic mode without a known separator directories get none.",
  "every sequence of added matches, all modes, separators and answers of the file system",
  "Depends on the history of all previous adds and hash set semantics.",
  ["clink/lib/src/matches_impl.cpp: matches_impl::add_match, match_lookup_hasher/comparator"])
p("C20", "Match selection returns exactly the matches that fit the typed text, in order",
  "After `match_pipeline::select` the visible matches are exactly those that fit the typed text, in the order that the list had, and no match is lost or added, so after any sequence of selections and sorts another selection shows exactly the matches of the original list that fit. A match fits if it begins with the text under the active comparison mode (or is an instance of the text followed by a star, if wildcards are on); only if none does and substrings are on, if it contains the last component of the text; hidden and system files only as far as settings and a typed dot allow. If the generator wants no sorting, `sort` brings back the order in which the matches were added, whatever was selected before; otherwise the order used by `sort` is a strict weak order, given that the collation of the system is consistent. `restrict` keeps exactly the matches that fit a pattern, and returns the text before its first wildcard. Not so: the order of the list without a sort (it is changed by earlier selections), the original order after the list was copied, and the order of types that the comment promises.",
  "every match list of fewer than 65536 matches, every needle within the limits of match_wild, all settings, every sequence of selections and sorts, every collation",
  "The list is compacted in place by swapping; correctness depends on the whole history of selections.",
  ["clink/lib/src/match_pipeline.cpp: match_pipeline::select, prefix_selector, pattern_selector", "clink/lib/src/matches_impl.cpp: matches_impl::coalesce"])
p("C21", "Packed match data unpacks to what was packed",
  "For a match with a display text and a description, packing into a buffer of the computed size never writes outside it, fills it exactly, and is refused exactly if the match or the display text is given but empty; after any sequence of creating and destroying tables for arrays of packed matches (one table per array at a time) and of setting a match apart, looking a match up gives the type, append character, flags and strings it was packed with (CR, LF and TAB being blanks) as long as the newest array that has it is alive and the strings before the description have at most 65529 bytes (65525 in debug builds) together, the details that were set apart for the match set apart last, and nothing for other pointers; Readline's append character, suppression and file name flags become what these details say.",
  "every match, display, description, type and flags; every sequence of operations",
  "Packed binary layout with embedded NUL-separated strings: must hold for all contents.",
  ["clink/lib/src/matches_lookaside.cpp: append_string_into_buffer, calc_packed_size, pack_match, matches_lookaside::add"])
p("C22", "Key bindings resolve to the most recently built key tree",
  "After any sequence of bind and create_group calls, typing keys (up to 16) that do not run into a parameter reports exactly the bindings of the group whose chord (of fewer than 16 keys, the last one ASCII) is what was typed or what it begins with: longer chords first, each in order of registration, with module, id and number of keys; step asks for more keys exactly while what was typed begins a longer chord; if bindings are claimed, the keys are split greedily into bound chords; keys matching a chord with parameters report its first binding with the values of the parameters; a binding for other keys or another group changes nothing; groups are found by name; bind succeeds while there is room and accesses memory outside its buffer exactly if the empty chord is bound twice.",
  "every sequence of calls with chords that can be told apart (no digit or * where another chord has a parameter) and without NUL, every chord text, every typed byte sequence",
  "The trie is encoded as sibling/child indices in one array; an insertion can corrupt a far-away path.",
  ["clink/lib/src/binder.cpp: binder::bind, insert_child, find_child, add_child, append, is_bound", "clink/lib/src/bind_resolver.cpp: bind_resolver::step"])
p("C23", "Colour settings survive being saved and re-read",
  "A colour description is accepted exactly if it is a valid sentence of the description grammar, and the SGR code it parses to sets exactly the attributes and colours described, whatever was set before. For every description that parses, formatting the resulting code (in compatible or current form) gives a description that parses to the same code. A raw code of decimal numbers is formatted as a description whose code has the same effect, and any other raw code is kept as it is.",
  "every text accepted by the colour parser; every raw code of decimal numbers below 2^31, and every other printable raw code with parameters of at most 9 characters; both forms of formatting",
  "Colours are a grammar with optional modifiers, abbreviations, defaults, 24-bit and raw SGR forms.",
  ["clink/core/src/settings.cpp: settings::parse_color, settings::format_color"])
p("C24", "Enumerated settings survive being saved and re-read",
  "For every option list and every text, an enumerated setting selects the first option whose number or whose name (ignoring case) the text is, and refuses anything else leaving the setting as it was. The name shown for a value is the name of that option, and if names differ and none is the number of another option it selects the same value again. A prefix of a name does not select it.",
  "every option list in which the last name is not empty, every value and every text",
  "Quantifies over option lists and user-typed text.",
  ["clink/core/src/settings.cpp: setting_enum::parse, setting_enum::get, next_option"])
p("C25", "Saving settings loses no setting, known or unknown",
  "Loading a settings file gives each known setting the value of the last line for it that is accepted, or its default, and keeps the first line of every other setting with the comment before it. What is saved is loaded again: known settings get the same values and the other settings of the file keep text and comment. A value that is refused, white space at the beginning of a value, line ends in values, and settings of scripts that are unloaded between two saves are lost (witnesses).",
  "every UTF-8 file, every set of declared settings with distinct names, every state whose values can be written (ValOk)",
  "Round trip over all maps of names and values.",
  ["clink/core/src/settings.cpp: load_internal, settings::load, save_internal, set_setting"])
p("C26", "Installing autorun and uninstalling it restores the user's command",
  "Installing puts the clink entry at the end of the AutoRun value, and there is exactly one entry after installing twice. Uninstalling after installing gives back the value of the user, apart from blanks and & at its beginning and one & at its end; uninstalling removes an entry in the middle with the & before it and nothing else; values that do not call clink are not changed. Entries whose path is not in quotes take commands before them along, an & in the arguments leaves part of the entry, long entries are cut off and the type REG_EXPAND_SZ is lost (witnesses).",
  "every AutoRun value that does not itself call clink, every path and arguments without & (or with & in a path in quotes)",
  "Text surgery on arbitrary user registry values.",
  ["clink/app/src/loader/autorun.cpp: find_clink_entry, get_cmd_start, uninstall_autorun_from_key, install_autorun"])
p("C27", "Completion columns fit on the screen",
  "For a console of up to 32767 cells and matches of up to 30000 cells: the layout chosen for displaying matches never has a total width above the available width when more than one column is used (one cell is left free); each column is wide enough for every match shown in it and for its description; every match is printed in exactly one row and column, in order; when columns are fitted, no layout with more columns (up to 50) has room for all matches and leaves two cells free; and the cells of the rows as printed begin where their columns begin and end within them, except that descriptions which are not right justified put every cell after the first on another screen line.",
  "every list of match widths and description widths, every terminal width, both reading orders, every setting of fitting, one column and abbreviated prefixes",
  "Layout is an optimisation over all column counts.",
  ["clink/lib/src/column_widths.cpp: calculate_columns, init_column_info"])
p("C28", "The scroll car stays within its track and reflects position",
  "For every list size, page size and top position the scroll car lies inside the track, has the size of the visible share of the list but at least one cell, is at the very top for the first position, touches the bottom at the last position, never moves up when the view moves down, and is within half a cell of the exact share of the lines above; each cell shows which of its halves belong to the car.",
  "all lists of less than 2^31 lines, all pages of at most 20000 rows, all positions, and every rounding of doubles that keeps the order and has a relative error of at most 2^-53",
  "Three-parameter arithmetic with rounding and clamping.",
  ["clink/lib/src/scroll_car.cpp: calc_scroll_car_size, calc_scroll_car_offset, get_scroll_car_char"])
p("C29", "String comparison computes the true common prefix",
  "Comparing two strings in exact, caseless or relaxed mode returns the length of the longest common prefix under that mode's character equivalence (or -1 when they are equal throughout); the relation is symmetric, and caseless equality is an equivalence that is coarser than exact equality.",
  "every pair of strings and mode",
  "Universal over pairs of strings; table-driven accent folding.",
  ["clink/core/include/core/str_compare.h: str_compare_impl, str_compare", "clink/core/src/str_compare.cpp: normalize_accent"])
p("C30", "Reading history gives back the lines that were written, whatever the read buffer size",
  "If every line of a history file is terminated by LF or CR, is shorter than the read buffer, and the file is smaller than 512 MB, then enumeration terminates and gives exactly the non-empty lines that are not marked as deleted and whose offset is not in the list of removals, in file order, with their exact file offsets and with the timestamp line that precedes them; the result does not depend on the size of the buffer or on what it held before, and no line is split, merged or repeated at buffer boundaries.",
  "every file content with terminated lines shorter than the buffer, every list of removals, every buffer size and initial buffer content",
  "Buffer refills can split a line at any offset.",
  ["clink/lib/src/history_db.cpp: read_lock::file_iter::next, read_lock::line_iter::next"])
p("C31", "Adding a line appends exactly that line and disturbs no other",
  "If the files of a session are in order (terminated lines that fit the buffer, below 512 MB, removals with the tag of the master file), then adding a line that is not empty, has no line breaks and does not start with the deletion mark makes the enumerated history equal to the previous one plus the new line at the end; existing entries keep text and identity; a timestamp is read back with its line; and the files are in order afterwards.",
  "every content of the files that is in order and every such line text and timestamp",
  "Invariant over all histories of operations.",
  ["clink/lib/src/history_db.cpp: write_lock::add, history_db::add, line_iter::next"])
p("C32", "Removing an entry removes exactly that entry",
  "Removing a history entry by the id from the enumeration makes exactly that entry disappear from the session's enumeration, in the master bank (immediately or deferred) and in the session bank; all other entries keep their text, order and identity; the files of other sessions do not change; the files are in order afterwards; removing it again changes nothing.",
  "every history content that is in order and every id obtained from enumeration",
  "Deletion overwrites a byte in place in a file shared between sessions; must hold for every position.",
  ["clink/lib/src/history_db.cpp: write_lock::remove, history_db::remove_internal, remove"])
p("C33", "Concurrent sessions never lose each other's history",
  "With any number of sessions adding, removing, loading, compacting and reaping in any interleaving of locked operations, a line that is in the file of a session, or in the master file without a session that waits to remove it, stays so until a session removes a line with this text, the history is cleared, or compaction drops lines by its limit or as duplicates; if duplicates are dropped, this holds for texts that no session ever wanted to remove. A line that was just added is such a line. It is violated in two ways: dropping duplicates keeps the last of equal lines even if a session waits to remove exactly that one, so that all are gone later; and a process that could not open the master file still deletes the files of ended sessions with their lines.",
  "every interleaving of operations by any number of sessions",
  "Schedules are unbounded; races appear only under specific interleavings.",
  ["clink/lib/src/history_db.cpp: history_db::add, reap, compact, apply_removals, remove_internal, bank_lock"])
p("C34", "Deferred removals never hit the wrong line",
  "In every state that sessions can reach by any interleaving of locked operations, a line of the master file that was not deleted is loaded by a session unless this session wanted to remove a line with this text, and a session does not load a line that it waits to remove; a step other than clearing and compaction leaves each line of the master file in its place or marks it as deleted, and then some session wanted to remove its text; after compaction, which keeps lines in order, a session that is found waits to remove a line if and only if it waited to remove the line that it came from; and when a session has ended and is collected by a process that uses the master file, the lines that it waited to remove are deleted. It is violated if the file of removals of an earlier process with the same number is still there: its tag is replaced and its offsets stay, so that another line is removed.",
  "every history, every interleaving of removal and compaction between sessions",
  "Needs a particular schedule of two sessions.",
  ["clink/lib/src/history_db.cpp: extract_ctag, remove_internal, apply_removals, rewrite_master_bank, compact"])
p("C35", "Compaction with a limit keeps the newest lines, and unique compaction keeps the last occurrence of each",
  "Compacting with limit N keeps exactly the newest N lines (with the option for unique lines: the newest N of the lines that are the last of their kind) in their original order with their timestamps, unless unique lines are asked for and N is larger than the number of different lines and smaller than the number of all lines, in which case nothing is kept. The new file starts with the new tag, and the map from old to new offsets has exactly the kept lines.",
  "every history file with terminated lines that fit the buffer, every limit, every tag",
  "Arithmetic over counts with gaps of removed duplicates; fails only for particular proportions.",
  ["clink/lib/src/history_db.cpp: rewrite_master_bank, compact"])
p("C36", "A torn append damages at most the line being written",
  "If the process dies after writing any prefix of the bytes of an append, then on the next read all previously completed lines are intact, and the interrupted line is missing, shortened or complete. (A line that is appended later is joined to the interrupted one.)",
  "every file, every line, every crash point, every buffer size that fits the lines",
  "Crash points inside a write are not reachable by unit tests.",
  ["clink/lib/src/history_db.cpp: write_lock::add, line_iter::next"])
p("C37", "Duplicate handling modes keep the promised history",
  "Under 'ignore' a repeated line is not added again and the old one keeps its place; under 'erase previous' the old occurrences disappear and the new one is last; under 'add' all occurrences stay. After any sequence of added lines the history is the first, the last, or all of the occurrences of each line, in order. In the first two modes, a history without duplicates stays without duplicates. All this for a session whose files are in order (see C31).",
  "every history that is in order and every sequence of added lines in every mode",
  "Invariant over all sequences of adds.",
  ["clink/lib/src/history_db.cpp: history_db::add, history_db::remove(line), find"])
p("C38", "Word colouring stays inside the line and later faces win only where asked",
  "Applying a face to any range changes only positions inside both the range and the line; with overwrite the range takes the new face, without overwrite only unset positions do. When a line has been drawn, each position has the face painted on its character (the last overwriting one, or else the first), or else the one painted on its word. Two colours have the same face code exactly if they differ in letter case at most, codes are kept from line to line, looking up a code gives back the first colour it was given for, and a colour is refused only if all 100 codes are taken by others. Two colourings compare equal exactly if nothing differs. From scripts: ranges count from 1, a negative length reaches to the end of the line, and a wrong word index is an error that changes nothing. (A first colour that is the empty string leaves a dangling key, so that the next colour is undefined behaviour; colours differing in case only share a code.)",
  "every sequence of lines and apply/classify/finish calls, every set of colours, every position, range and index",
  "Codes are 8-bit with a cap of 100; bounded arrays written by scripts with arbitrary ranges.",
  ["clink/lib/src/word_classifications.cpp: ensure_face, apply_face, classify_word, get_face_output, finish"])
p("C39", "Background command recognition never gets stuck",
  "Under every interleaving of the input thread and the recogniser worker: while a word is pending or being searched for, the worker can take a step; it takes at most ten steps if no more is requested, and then nothing is pending; so a wait for recognition to finish ends, and so does shutting down. After a request is accepted and waited for, its answer is reported as current. A new answer makes the next refresh check report new results. (Calling shutdown a second time signals a closed handle.)",
  "every schedule of find/enqueue/clear/need_refresh/wait/shutdown with the worker's steps, and every result of a search",
  "Lost wake-ups depend on thread interleavings.",
  ["clink/lib/src/recognizer.cpp: recognizer::enqueue, dequeue, set_result_available, store, proc, usable, clear, shutdown"])
p("C40", "A recognition answer is about the word asked for and is current",
  "Whenever a recognition is reported as current for a word, it was requested for that same key, taken by the worker and found by it, nothing was invalidated between the request and its taking nor since it was found; and it was requested since the last invalidation unless that happened while the worker searched. (A result being searched for during an invalidation is afterwards reported as current.) Conversely an answer is reported as current until it is invalidated or replaced.",
  "every schedule of requests, invalidations and worker completions",
  "Stale results need an invalidation between dequeue and store.",
  ["clink/lib/src/recognizer.cpp: recognizer::find, store, clear, proc"])
p("C41", "Environment expansion replaces exactly the defined variables and keeps the cursor inside the text",
  "Expanding a text replaces each %NAME% reference to a defined variable by its value and leaves all other text as is, where references are found from left to right; text without a percent sign is unchanged, and so is a cursor before all replaced references. The cursor stays inside the expanded text, keeps the text before it if it is not inside a reference, and moves to the end of the value if it is, provided that at most the last replaced reference changes its length. (With two references the cursor can end up behind the text: %A%%A% with A=x and the cursor at the end.) Pseudo variables are used only for names that the environment does not define.",
  "every text, environment and cursor position",
  "Universal over text and environments.",
  ["clink/core/src/os.cpp: os::expand_env"])
p("C42", "Only history references outside protected quotes are expanded",
  "History expansion is suppressed exactly for characters inside quotations of the kinds that the setting protects, for every line in which no quotation contains the other kind of quote. On any line, it is suppressed exactly when the quote characters before it end with an odd number of equal quotes of a protected kind.",
  "every line and every setting value",
  "State machine over arbitrary text.",
  ["clink/lib/src/history_db.cpp: history_expand_control"])
p("C43", "Stripping wake-up characters removes only the configured control characters",
  "Stripping removes exactly the control characters selected by the configured wake-up mask and keeps every other character in order; the result is terminated if the text was, never longer than the input, nothing outside the buffer is touched, and stripping again changes nothing.",
  "every text, every mask and every limit",
  "In-place editing with two pointers must be right for every string and mask.",
  ["clink/lib/src/wakeup_chars.cpp: strip_wakeup_chars_worker, set_ctrl_wakeup_mask"])
p("C44", "Changing a setting from a session changes only that setting in the file",
  "sandboxed_set_setting and sandboxed_overlay change the settings file exactly by the given changes: the next session loads the new values for the given names and what was there before for all others, including settings it does not know. A refused value changes nothing and is reported. In the running session every setting except colours has its value again afterwards. Witnesses show where this fails: a setting that is in the file but is not known keeps its old value although success is reported, colours of the session are replaced by those of the file, and settings.clear of scripts reads at a null pointer for integers, does not change the file for booleans, and stores an empty text for strings.",
  "every UTF-8 settings file, every set of declared settings with distinct names, every list of changes",
  "Needs all combinations of session state, file content and changes; the restored state is not observable by file-based tests.",
  ["clink/core/src/settings.cpp: rollback_settings_values, sandboxed_set_setting, sandboxed_overlay, set_setting, clear_setting", "clink/lua/src/settings_api.cpp: set, clear"])

p("C45", "The input line on the screen shows every character once, and the cursor is on the character at rl_point",
  "display_lines::parse puts the whole line on rows, in order: a newline ends a row, a character goes to the next row if and only if there is no room for it, and behind the line there is room for the cursor. There is only one such arrangement. For each row the text with its faces, the filling spaces, the range of the line, the first and last columns, and the cells that belong to a control character from the row before are as the arrangement says. The cursor is on the character that holds the byte at rl_point, or behind the line, and within the screen if that character has a width. Witnesses show where this fails: a newline behind a full row has the cursor outside the screen, and behind a control character that is not ASCII the cursor is on the wrong character.",
  "every UTF-8 line whose control characters are ASCII, every width at least that of the widest character, every column and row of the prompt's end, every rl_point and assignment of faces, every table of character widths",
  "Needs all combinations of wide, combining and control characters with line breaks at every column; the tests have no screen.",
  ["clink/lib/src/display_readline.cpp: display_lines::parse, next_line"])

p("C46", "Scrolling keeps the cursor in view, goes no further than needed, and leaves room for the scroll marks",
  "If the last line of the prompt is on one row, then after each display the rows that are shown exist, they are as many as allowed, the row with the cursor is among them, and the cursor is neither on the mark at the start of the first row nor in the last column of the last row if more rows follow; no other first row for which that is so is nearer to the one before, so what is shown does not change if that was so already. The mark at the end of the last row is put in the last column but one, in place of the characters for which there is no room. Witnesses show that the cursor can be on that mark, and that the cursor can be above what is shown, and a row of the prompt can be shown in place of the end of the line, if the last line of the prompt needs more rows.",
  "every number of rows, every size of the screen with at least two rows and columns, every cursor position, every previous state",
  "Needs sequences of cursor movements on lines longer than the allowed rows; there is no test of the display.",
  ["clink/lib/src/display_readline.cpp: display_manager::display"])

p("C47", "A mouse click finds the character that is shown there",
  "If the last line of the prompt is on one row and the line has no control characters, then translate_xy_to_readline gives the position of the character to which the cell belongs, wherever the display is scrolled to; behind the last character of a row it gives where the next row starts, or the end of the line; on the prompt it gives the start of the line. Rows above and below the line give nothing, or are taken as the first or last row if so requested. Witnesses show that the result is wrong behind a newline, behind a control character that is on two rows, and if the last line of the prompt needs two rows.",
  "every UTF-8 line without control characters, every width at least that of the widest character, every cell, every scroll offset, every table of character widths",
  "translate_xy_to_readline asserts that it is not run by the tests.",
  ["clink/lib/src/display_readline.cpp: translate_xy_to_readline"])

p("C48", "Redrawing only what changed on a row leaves the new row on the screen",
  "update_line compares a row with what is shown there, and sends only what differs: it moves the cursor, inserts or deletes cells, writes the part that differs, and clears the rest with spaces or by clearing to the end of the row. Whatever the terminal makes of wide characters that are cut on the way, afterwards the row of the screen shows the prompt, the new row and blanks, and the cursor is where the code believes it to be. The rows that display_lines::parse makes are as this requires. Witnesses show where it fails: if clearing to the end is allowed, the end of a row that gets shorter can be lost behind two spaces, and memory before the row is read if it starts with a space; the mark of an empty first row, or on a wide character, makes the code believe in a wrong column.",
  "every pair of rows of UTF-8 text whose characters have a width, every screen width, prompt, cursor column and assignment of faces (one per character), every table of character widths, every behaviour of the terminal for characters that are cut",
  "Needs all pairs of rows with wide characters at the places where they begin and end to differ, and a screen; there is no test of the display.",
  ["clink/lib/src/display_readline.cpp: display_manager::update_line, shift_cols, move_to_column, clear_to_eol, display_lines::apply_scroll_markers"])
p("C49", "A session stream behaves like a file",
  "clink.opensessionstream gives handles to streams that are kept in memory under a name. For every sequence of opening, writing, reading (bytes, lines, numbers, everything), seeking, truncating and closing, with any number of handles for the same or other names, each result is that of a file: the handles of a name share the bytes and have their own positions, appending writes at the end, text mode turns LF into CR LF when writing and back when reading (also where the CR LF is at the border of what is read), what does not fit into the limit is not written and reported, the modes are the sixteen documented ones. What is written to a new stream is read again. Witnesses show where it is not so: memory that was not initialised is read after writing behind the end, writing nothing there extends the stream, read(0) is inverted, seeking before the start goes to the limit, a CR is left at the end of lines of certain lengths, a NUL joins lines, and after truncating a number is read beyond the end.",
  "every sequence of operations with every name, mode, text, position and list of things to read, every content of memory that was not initialised, every limit and buffer size",
  "The tests write a few short lines; the failures need a line of exactly 510 bytes, a position behind the end, a NUL, or truncating before reading a number.",
  ["clink/lua/src/sessionstream.cpp: session_stream::write, read, gets, scan_number, truncate, luaL_SessionStream::make_new, ss_read, seek, write", "clink/lua/src/clink_api.cpp: open_session_stream"])
p("C50", "A line that names a directory changes to it, and cd - goes back",
  "A line is turned into a command that changes the directory exactly if it is one word (perhaps between blanks, with quotes, carets and variables) that has nothing that means something else to the command processor, does not start with a command such as cd, and is two or more dots, or names a directory and ends with a separator or is ~ or ..\\.. and so on; the command has the directory with backslashes within quotes and changes the drive if needed. Nothing of the line is outside the quotes. Dots go up one directory less than there are dots whatever exists. -, cd - and chdir - (with /d or not) are recognized exactly. What the line is coloured as is what happens, unless the directory is remote. The directory history has at most 100 directories in the order of the visits; with add it is the newest moves, with erase_prev every directory once where it was visited last; cd - goes to the most recent directory that is not the current one, however the setting changed meanwhile. Witnesses show that a caret behind a caret is lost and that a quote behind a caret starts quoting, so that & is taken as part of a name.",
  "every line, every mode, every behaviour of the operating system (directories, variables, home, aliases, remote drives, current directory), every sequence of directories at the prompts with every sequence of settings",
  "The tests try some lines and no directory history; quotes, carets and variables in any order and changing settings give unbounded combinations.",
  ["clink/lib/src/intercept.cpp: parse_line_token, parse_cd_chdir_command, is_cd_dash, intercept_directory, make_cd_command", "clink/app/src/host/host.cpp: update_dir_history, prev_dir_history", "clink/core/src/path.cpp: get_drive, past_ssqs, normalise_separators"])
p("C51", "Text is shown with the colours and attributes that it should have",
  "An escape sequence for attributes means exactly what is described, from its characters to the look: the numbers between the semicolons (at most 32), colours of 16, 256 and RGB, bold, underline, reverse and resets in any order. Merging attributes puts the second over the first; their difference leads from one to the other and sets nothing that stays. What the printer writes when attributes change gives the new look exactly if not both colours become the default ones while text stays bold or underlined. So for every sequence of calls with the 16 colours, without reverse, and bold or underline only together with a colour, every text is shown as it should be. On a console without escape sequences a sequence gives the right attribute word, and the other bits stay, exactly if the text is not both underlined and reversed, no colour below 8 is set without bold while text is bold, and bold is not turned off without a colour. Both together: every text printed in plain text or with a colour has the right attribute word. Witnesses show what goes wrong otherwise: lost bold, reverse and RGB colours never written, attributes that stay behind, bold that stays bright.",
  "every sequence of bytes and numbers, every look, every sequence of calls, every console word and default colour, every palette",
  "The tests check merging of some attributes; sequences of calls and of escape sequences and the states that they leave behind are unbounded.",
  ["clink/terminal/src/attributes.cpp", "clink/terminal/src/printer.cpp: print, set_attributes, flush_attributes", "clink/terminal/src/ecma48_iter.cpp: decode_csi", "clink/terminal/src/ecma48_terminal_out.cpp: write, write_c1, set_attributes", "clink/terminal/src/win_screen_buffer.cpp: set_attributes, find_best_palette_match"])
p("C52", "Accepting a suggestion gives the line that is shown",
  "A suggestion is shown exactly when it continues the line up to case and accents (for text without runs of separators), and what is shown is the line followed by the rest of it. Accepting it gives that line; with the original capitalisation the characters of the suggestion replace those from the last word on, which changes only case and accents, and nothing more is suggested. Accepting a full word gives the start of the same line up to the end of the next word: blanks, then everything up to a blank outside quotes; the rest stays suggested. The same holds for a word as rl_forward_word sees it, wherever it stops. Accepting words again and again gives longer and longer starts of one line, and all of it in the end. New suggestions are asked for exactly when the line is not the one that they were set for. Nothing is asked for while suggestions are paused, something else is read, text is selected or the cursor is not at the end; and accepting does nothing when suggestions are off, not shown in the line, when none is left or the cursor is not at the end. Witnesses show what goes wrong otherwise: with an accent before the last word accepting the next word never ends or cuts a character in half, a run of slashes loses a character, what was typed is replaced by a suggestion that is not shown any more, quotes before a suggestion for the end of the line are not seen, and new suggestions are always asked for after a part was accepted.",
  "every line, suggestion, offset, position of the last word, number of words, setting and case function",
  "The project has no tests of accepting suggestions; lines, suggestions and sequences of partial acceptance are unbounded.",
  ["clink/lib/src/suggestions.cpp: suggestion_manager, remove_if_history_index", "clink/lib/src/rl/rl_buffer.cpp: insert, remove, set_cursor", "clink/lib/src/rl/rl_commands.cpp: clink_forward_word, clink_forward_bigword"])
p("C53", "The completion list shows what is selected, and keys lead where one expects",
  "While the list of clink-select-complete is open there is always a selected match, it is on one of the rows that are shown, and the line, the list, its comment and the description fit on the terminal. No more rows are shown than the setting allows (but two always, if there is room), a preview hides at least two, and wide matches have their description below. Every match is in one cell of the grid. The screen has exactly the rows from the first one shown on, with the selected match and no other highlighted, and a true comment if there are more rows. Right and Left go to the next match along the rows and Down and Up along the columns, the tab keys in the order of the matches; at the ends they wrap around or stay, and after Right or Down came to the end they do nothing until another key. Page Up, Page Down and the wheel stay in the column, a page is less than the rows shown, and they go to the last match only where the column has none. A click on a match selects it, puts it in the line and does not scroll. New text selects the first match. The selected match is in the line unless the wheel was used. Only other keys, no matches, double clicks, clicks above and a lack of room close the list. Witnesses show what goes wrong: with more columns than matches a match that does not exist is selected, a click on the scroll bar or a lower line scrolls beyond the end, the comment is lost when the terminal changes, the list is erased when text makes the line higher, a stale flag makes clicks on matches clicks on the scroll bar, a click beside a single column selects the last match, and F1 scrolls the preview which an assertion excludes.",
  "every number of matches, grid, terminal size, setting and sequence of keys, clicks, wheel turns, text and changes of size",
  "The project has no tests of the list; numbers of matches, grids and sequences of input are unbounded.",
  ["clink/lib/src/selectcomplete_impl.cpp: activate, on_input, move_selection_lower, move_selection_higher, update_layout, update_top, update_display, insert_match, set_top, reset_top, on_terminal_resize"])
p("C54", "Scripts get the results of their tasks once, and only when the work is done",
  "For all orders in which the main thread and the threads of the tasks take their steps: the callback of a task is run only when its work is done, at most once, and not after its slot in the Lua registry was freed, after the script got the answer or cancelled the task, or after the line or the Lua state came to its end. What is called and freed is that callback, if no Lua state ends while there are callbacks to free. No slot is freed twice, and when nothing goes on every callback was freed or its task still works. When a thread has come to the end, or there is a callback to free, the event that brings on_idle is set. No two tasks in the map have the same key, and a path with a task does not get another. The type of a path that a script is told was given by the system for that path; results, and the end of the shares, are told only when the work is done. Tasks are cancelled only by the script and at the end of the line or of the Lua state. A coroutine that waits although it will not be woken any more looked before the work was done and cleared the flag after the last wake. Threads are detached twice or through a null pointer only if both threads were in detach at the same time, and the object to wait with is used after it was freed only if it was collected. Witnesses show what goes wrong: a thread turns its own callback off, so that it is run only when another task brings on_idle in time; main thread and thread detach at the same time; a coroutine sleeps for ever; shares are lost; the object to wait with is used after it was collected; after Lua was started again a slot of the new state is freed, and what is called is not the callback.",
  "every number of tasks, every sequence of steps of the main thread, the scripts and the threads, in every order, and every order of the map",
  "The failures need particular orders of the steps of two threads, which tests meet only by chance.",
  ["clink/lua/src/async_lua_task.cpp: find, add, on_idle, end_line, shutdown, run_callback, cancel, wake_asyncyield, start, detach, proc", "clink/lua/src/internal_api.cpp: async_path_type", "clink/lua/src/http_api.cpp: continuation, wait", "clink/lua/src/os_api.cpp: iter_aux", "clink/lua/scripts/coroutines.lua"])
p("C55", "Abbreviated directory names are expanded to the directories they stand for",
  "For every path of directory names and a last name, with or without a local drive: if every directory name stands for one directory (the first found with exactly this name up to case, or the only one found) then the names of these directories take the place of what was typed, the last name is left alone, and the path is reported as unique; nothing is done if that changes nothing. Otherwise the names before the first one that stands for several directories are replaced, that one becomes what the first two directories (and the first entry that begins exactly as typed) have in common, everything after it is left alone, and the path is reported as ambiguous. Nothing is expanded if there is no directory for one of the names, on a drive that is remote or missing, in a share, or without a directory name. What the name becomes begins with what was typed if all that is found does. For all text whatsoever nothing is read outside of it and the rest that is handed back is the end of it; quotes make no difference for what is expanded. Witnesses show: only the first two of several directories count, against the documented example; a complete name is not reported as documented, and is recognised depending on the order of the listing; with quotes the rest begins too early; `.\\file` becomes `.git\\file`; what was typed gets shorter when names are compared exactly; a file changes what directories have in common; two separators after a drive are reported as ambiguous.",
  "every content and order of the file system, every way of comparing names, every path of any length",
  "Tests use a small tree of directories with lower-case names, no quotes and no dot directories.",
  ["clink/core/src/os.cpp: disambiguate_abbreviated_path", "clink/lua/src/os_api.cpp: expand_abbreviated_path", "clink/core/src/path.cpp: is_incomplete_unc, get_drive"])
p("C56", "Every key is read once, in order, as what it stands for",
  "For every sequence of records from the console, whenever they come, and every sequence of calls of available, select, read and peek: what read has returned is the beginning of the bytes that the keys give, and if one goes on waiting and reading then all of them are returned; nothing is lost, doubled or put in another order, also when the buffer is looked at in between and when the two halves of a surrogate pair come apart. When available says that there is nothing, although all records have come, then everything has been read. peek returns what read is going to return (if all keys are taken as they are and the size does not change). Typed text comes out as its UTF-8, also characters outside of the BMP, with AltGr, and with keys released or modifiers pressed in between. Alt puts ESC in front of a character, ctrl with a letter gives the control character. Cursor keys, Home, End, Insert, Delete, Page up, Page down and F1 to F12 give the sequences of xterm (alt and a function key: ESC in front), of which none is the beginning of another one. Esc gives ESC or, without raw Esc, a sequence of its own; Backspace, Tab, Enter and Space give their characters and with modifiers a sequence of their own. Witnesses show: asking whether there is input loses a click of the mouse; if a callback asks for it while select waits then keys are read in the wrong order; peek returns an uninitialised value when the size changes; available and peek promise keys that read drops; replacements of keys that are not ASCII come out wrong.",
  "all sequences of records and calls, all timings, all settings, all key testers",
  "Tests replace the terminal by one that has the bytes already; they never see records, let alone in other interleavings with calls.",
  ["clink/terminal/src/win_terminal_in.cpp: available, select, read, peek, read_console, process_record, peek_record, process_input, filter_unbound_input, push, pop"])
p("C57", "Colouring rules give each match the documented colour",
  "For every series of colouring rules, in whatever way it is written (blanks between the conditions, letters of types in upper or lower case, quotes, backslash escapes, octal and hexadecimal numbers, control characters, a colon at the end or none): a file or directory gets the colour of the first rule which has patterns or several types and which fits it, that is, it has all types named, none of the types after not, and its name matches all patterns and none of the patterns after not; if there is none then the last colour given for its type, else the default of the type; with the colour no in front. The name is the part after the last separator, without separators at the end of a directory. Matches which are neither have no type. Commands and aliases keep their own colours. The colour of the common prefix is the last one given, else the one of the setting. A rule which cannot be read (no = or an open quote) does not affect those before it. Witnesses show where the code does not do what the documentation says: rules for mi, or and so have no effect, a quoted not is the operator, no with a pattern never fits, any alone is dropped, a blank after a backslash at the end loses the rule, an empty rule ends the series, hidden files without a colour for hi lose the colour of fi, links to directories are not found by name, the default for di is another one, [^a] is not a class.",
  "all series of rules, all ways to write them, all matches, all file systems, all defaults",
  "Tests have a few rules written in one way; the combinations of conditions, escapes, order of rules and types of entries cannot be listed.",
  ["clink/lib/src/match_colors.cpp: color_rules parsing, get_token, get_token_and_value, parse_rule, parse_match_colors, get_match_color, get_completion_prefix_color"])
p("C58", "Requests to the terminal find their answer and lose no keys",
  "A request to the terminal reads the console until the answer comes or the time is up. Whatever comes and whenever it comes: records are not changed, repeated or brought in another order, and an answer that is returned ends with the character asked for and agrees with the prefix. If there is no answer then everything typed before and during the request (keys and characters of the BMP) is read afterwards, in order. If the answer is a control sequence (CSI), sent byte by byte, with key releases or mouse records in between or not, and it comes in time after keys that are not the Esc key, then it is the one returned, and what is read afterwards is what was typed before the request, between the request and the answer, and after the answer, in order and without a byte of the answer. Witnesses show where that is false: a character outside the BMP typed during a request becomes U+FFFD; after the Esc key or ctrl-2 the answer is not recognised and is read as if typed; answers that are not control sequences (OSC) are never recognised; with raw Esc, alt-[ just before the answer is lost and the end of the answer is read instead.",
  "all key tables, all records, all moments at which records come, all requests with a CSI prefix (order and honesty: all requests), all calls before and afterwards",
  "Tests do not send answers among typed keys; which records an answer is made of, what is typed around it and when the parts arrive cannot be enumerated.",
  ["clink/terminal/src/win_terminal_in.cpp: send_terminal_request, is_matching_response, is_final_byte", "clink/terminal/src/ecma48_iter.cpp: ecma48_iter::next"])
p("C59", "The exit code and the lines of its file are read as they were written",
  "The file into which CMD writes the exit code is read line by line. For every file in the code page of the system, whichever that is, without NUL and without the byte 255 and with lines of at most 63 units, and for every file in UTF-16 without NUL that begins with a character below U+0100 and holds more than this character (lines of any length): each call gives the next line without its end as UTF-8, and the call after the last line returns false. For every exit code from -2147483648 to 2147483647, what CMD writes for it (with any number of spaces up to 50), in both encodings, gives this number to os::set_errorlevel. Witnesses show where that is false: in files that are not UTF-16 a line of 64 or more characters (but not 127) writes outside of the buffer, because half of the room needed is reserved; a line that begins with the byte 255 ends the reading, and this byte inside a line splits the line; a file in UTF-16 with one character is read as empty.",
  "all code pages, all files, all lines and line ends, all exit codes",
  "The tests do not contain this reader; lines of every length in every code page cannot be tried.",
  ["clink/lib/src/errfile_reader.cpp: errfile_reader::next", "clink/app/src/host/host.cpp: host::edit_line", "clink/core/include/core/str.h: str_impl::reserve, str_impl::concat"])
p("C60", "Wrapping text puts as many words as fit on each line",
  "ecma48_wrapper: for every text without control characters, every table of widths and every width of a line (zero means no limit) such that every space is a character of its own of one cell and no character is wider than a line, the lines are those of greedy word wrapping: spaces at the start are dropped, a line holds words that fit and ends before a word that does not fit, a word that alone is too wide is cut where it stops fitting, no line begins or ends with a space, no line is too wide, all characters other than spaces are kept in order, and there is one empty line if nothing is left. This determines the lines. Witnesses show where the code fails: with a first character that is wider than a line it never ends; with control codes in the text a code at the end of a line is lost, a code behind a space is torn (even without a limit a code at the end of the text is cut off), and a code before a word that is too long is given twice and then read as text.",
  "all texts, all widths of lines, all tables of widths of characters",
  "The tests do not contain this class; where words end and lines are full depends on every character before.",
  ["clink/terminal/src/ecma48_wrapper.cpp: ecma48_wrapper::ecma48_wrapper, ecma48_wrapper::next"])
p("C61", "The width of a character is what the tables say",
  "wcwidth: binary search in every sorted table finds exactly the characters of the table and reads nothing outside of it, and all tables in the code are sorted without overlap. For every character: the width is -1 exactly for control characters, 0 exactly for NUL and combining characters (for these, the width that the caller sets), 2 exactly for emoji in colour terminals and for East Asian wide characters that are neither combining nor emoji of unqualified half width, and otherwise 1; where only UCS-2 is supported, 2 exactly for characters from U+10000 and for those that Windows 10 or 11 shows wide. The setting terminal.east_asian_ambiguous changes only the ambiguous characters, and these have the width that the setting says. Printable ASCII is 1 in every configuration, so that the theorem about wrapping holds for ASCII text with the real tables. Witnesses: with 'auto' and code page 65001, documented to use 1, U+2614 is 2 with emoji in colour; U+065F (Mn) has 1, U+17000 (wide) has 1 and U+06DE (So) has 0, against the comment.",
  "all characters, all configurations (colour, version of Windows, code page, font, setting); all sorted tables",
  "There are more than a million characters and hundreds of intervals; tests look at a few characters in one configuration.",
  ["clink/terminal/src/wcwidth.cpp: bisearch, is_cjk_halfwidth, mk_wcwidth, mk_wcwidth_ucs2, mk_wcwidth_cjk, mk_wcwidth_cjk_ucs2, is_variant_selector, is_possible_unqualified_half_width, is_emoji, resolve_ambiguous_wcwidth, is_CJK_codepage, reset_wcwidths", "clink/terminal/src/emoji-test.i"])
p("C62", "Lists are shown page by page with nothing left out",
  "The pager (pager_impl) and the list of matches (display_match_list_internal): for every list, every sequence of keys and every size of the terminal, what is shown is the beginning of the list in order, and the whole list unless the user stops; nothing is shown after the user stops. The pager: before the first prompt there are as many items as leave two rows, after an answer there is one item and then as many as stay below the number of lines asked for; with items of one line these are exactly rows - 2, 1, rows / 2 or rows - 2 lines; if no item has more than two lines, everything between two prompts is still on the screen. The matches: every match is in exactly one row, at the place for the direction (across or down), with no more in a row than there are columns and as few rows as possible; everything between two prompts fits on the screen with the prompt unless it is one row; one line gives one row and a page as many rows as fit. Witnesses: a first item of three lines makes the pager scroll it off the screen; with at most two rows a page means everything; a caller that asks again after stop is refused once and then never asked again.",
  "all lists, numbers of lines, sequences of keys, sizes of the terminal (also changing ones), counts and columns",
  "The tests have no pager; how many lines fit depends on all keys and sizes before.",
  ["clink/lib/src/pager_impl.cpp: bind_input, on_input, start_pager, on_print_lines, set_limit", "clink/lib/src/rl/rl_help.cpp: show_key_bindings", "clink/lib/src/display_matches.cpp: internal_pager, display_match_list_internal", "readline/readline/complete.c: get_y_or_n"])
p("C63", "A search of the screen finds the nearest line",
  "console.findprevline and console.findnextline: for every screen, starting line and number of lines, a search for a text in its exact case, for attributes alone, or for a valid regular expression with or without attributes (also ignoring case) returns the number of the nearest line at or above (below) the starting line that has it, where blanks at the end of a line do not count; and 0 if there is none. A starting line outside is replaced by the first or last line. Downwards the line after the last one is searched too, and the claim needs that the last line is not the last line of the screen buffer: otherwise 1 is returned if nothing is found. Violations with witnesses: 0 and not the documented -1 for an expression that is not valid; with icase and without regex capitals on the screen are never found; a text together with attributes subtracts a pointer from a null pointer at the first line without the text; more than 32 attributes are written beyond an array.",
  "all screens, texts, expressions (the matcher is a parameter), attributes, masks, lines",
  "No test searches the screen: there is no screen in the tests.",
  ["clink/terminal/src/find_line.cpp: find_line", "clink/terminal/src/win_screen_buffer.cpp: win_screen_buffer::find_line", "clink/lua/src/console_api.cpp: find_line, find_prev_line, find_next_line"])
p("C64", "Sticky search replays a series of lines and loses no new line",
  "With history.sticky_search: for every history without empty lines, Up k times and Enter runs the k-th entry from the end, and then Down and Enter as often as wanted runs the following entries in their order; none of them is to be added to the history. From a position that was left, Up first gives the same entry again and then the ones before; n times Down gives the n-th entry after it. Looking at entries in any order without changing them gives an empty line or an entry, which is not added and which is the position left (unless the first key after a position was left is Down). For every sequence of changes, Up and Down that does not go up more often than there are entries above, a line that is not added is equal to the entry at the position that is left, so nothing new is lost. Without the setting every line is to be added. Violations with witnesses: Up on the first entry after changing it makes the changed line look like the entry, so it is not added and is lost; Down and Up after a position was left save an entry as the line being written, which then is added again.",
  "all histories, positions and sequences of Up, Down and changes of the text",
  "The tests of the history do not edit entries while this setting is on; the violations need a particular order of keys.",
  ["clink/lib/src/sticky_search.cpp: save_sticky_search_position, restore_sticky_search_position, clear_sticky_search_position, can_sticky_search_add_history", "clink/lib/src/rl/rl_module.cpp: buffer_changing, on_begin_line, on_end_line", "clink/app/src/host/host.cpp: host::edit_line", "readline/readline/misc.c: rl_get_previous_history, rl_get_next_history, _rl_maybe_replace_line, rl_maybe_unsave_line", "readline/readline/readline.c: readline_common_teardown"])
p("C65", "Scrolling moves the window as near as possible and keeps its size",
  "console.scroll and the scroll commands (ScrollConsoleRelative): for every valid screen (window, size of the buffer, last line to show) and every amount within 16 bits, scrolling by lines, by pages (one line less than the window), to the end or to a line moves the window to the line nearest to the one asked for at which it does not pass the last line (or is at the top); the window keeps its height, and the result is the number of lines moved. Scrolling by n lines and back gives the screen there was, if both places are allowed. Violations with witnesses: line 2 cannot be asked for (absolute 2 gives line 1); amounts beyond 16 bits wrap, so that 40000 lines down are up; the product for pages can overflow; a window below the input line goes up when asked to go down.",
  "all screens, modes and amounts",
  "console.scroll asserts that it is not in the test harness: it is never tested.",
  ["clink/terminal/src/scroll.cpp: ScrollConsoleRelative", "clink/lua/src/console_api.cpp: scroll", "clink/lib/src/display_readline.cpp: calc_max_y_scroll_pos"])
p("C66", "Installing and uninstalling script paths keeps a list of different paths",
  "clink installscripts and uninstallscripts: for every text in the registry, installing a path adds it at the end unless it is there in some spelling (case, kind and number of separators), in which case nothing changes; uninstalling removes it in every spelling and keeps the others and their order, or reports that it is not there and changes nothing; without a path, with a semicolon or when the registry cannot be written nothing changes and the command fails. --list prints the paths in order. After any sequence of commands the list has the paths installed and not uninstalled since, pairwise different if they were at the start; uninstalling what was just installed gives the list there was. Violations with witnesses: uninstallscripts --all never prints what it uninstalls (it reads the list after emptying it); an empty path is reported as installed each time but is not there.",
  "all registry texts of Unicode characters, all arguments, all sequences of commands",
  "The commands change the registry of the user and have no tests.",
  ["clink/app/src/loader/installscripts.cpp: change_value, list_installed_scripts, uninstallscripts", "clink/app/src/utils/app_context.cpp: get_installed_scripts, set_installed_scripts"])
p("C67", "The list of key bindings shows every binding once and in order",
  "clink-show-help and its variants (show_key_bindings): the functions for sorting define an order (modifier keys, named keys, name); without two bindings for the same key nothing is removed; the rows along have for every number of columns and every number of entries exactly the entries of the category in order, in the least number of rows, and so have the rows down the columns if there is one row or at most one place is empty; every category has one heading, with an empty line between categories; a macro that fits is shown whole, otherwise the longest beginning that fits with the ellipsis. Violations with witnesses: bindings of the same key are never ordered by function (a text is compared with itself); after the first duplicate the next binding is lost, with one more binding freed memory is read, and without room memory after the array is read; down the columns with two or more empty places a binding of another category (or beyond the array) is shown and a binding of the category is missing.",
  "all lists of entries, all widths and numbers of columns",
  "Needs a console, many bindings and particular widths; the tests do not list key bindings on a screen.",
  ["clink/lib/src/rl/rl_help.cpp: show_key_bindings, cmp_sort_collector, cmp_sort_collector_cat, is_keyentry_equivalent, append_key_macro"])
p("C68", "The command history does what its arguments say",
  "clink history: options (--bare, --diag, --unique, --show-time, --no-show-time, --time-format) can be anywhere and shortened to three characters, and the words that are left give exactly one action: list all or the last n, clear, compact, delete, add or expand in any case, or the options -c, -d, -s, -p of bash; anything else gives the help and a failure; --help, -h and -? give the help wherever they are. delete n removes the nth line, or the nth from the end for a negative number, and nothing if there is no such line. The list has the last n lines in order with their numbers and padded times, and control characters are made visible on a console. Violations with witnesses: --no-show-time has no effect when history.time_stamp is show; --time-format as the last argument takes the argument before it away (or reads a null pointer); the text of add loses words that look like options; -sfoo and -cx do two things; the argument - reads beyond a string; a second --time-format is appended when output is redirected; large numbers wrap around.",
  "all lists of arguments, all numbers, all histories",
  "The command starts a process with a profile and a console; the tests do not run it, and arguments have no bound.",
  ["clink/app/src/loader/history.cpp: history, history_bash, is_flag, print_history, remove, get_line, translate_history_line", "getopt/getopt.c: getopt_internal", "clink/lib/src/history_timeformatter.cpp: set_timeformat"])
p("C69", "The log has the messages that it should have, in order",
  "logger with deferred messages and nested groups: if something else than deferred messages is logged before the first group, the log has exactly the messages that are not in a discarded group, in order, whatever the nesting of groups, and nothing is left over afterwards; while a group is open nothing is written, and when it is closed all of it is written or (when discarded) nothing; verbose groups are written at once and cannot be discarded; deferred messages alone write nothing. Violations with witnesses: numbers of errors are never shown in hexadecimal although there is a format for it (the number has no sign); a group before the first message, which only an assertion forbids, turns the order round.",
  "all programs of messages, errors, deferred messages and groups of any depth",
  "Needs all nestings of groups; the tests have no logger.",
  ["clink/core/src/log.cpp: logger::info, logger::error, logger::defer_info, logger::emit, logger::emit_deferred, logger::begin_group, logger::end_group, logging_group::logging_group, logging_group::close"])
p("C70", "Raw names of keys can be used in an inputrc file",
  "The raw names in the list of key bindings (clink-show-help-raw, rl.getkeybindings(true)): for every sequence of keys without C-\\ (and without a byte beyond 127 after a single ESC) the name in quotes, at the beginning of a line of an inputrc file, is read by readline as exactly the same keys, whatever follows the closing quote; so different keys have different names; the number for sorting says whether the first key has Alt or Ctrl. Violations with witnesses: C-\\ is written with one backslash, so at the end of the keys the closing quote is taken away and the line is refused, and before another key it becomes a different key; a byte beyond 127 after a single ESC loses its highest bit.",
  "all sequences of keys, all texts that follow",
  "Names are for all sequences of keys; the tests do not compare what is shown with what readline reads.",
  ["clink/lib/src/rl/rl_help.cpp: translate_keyseq", "readline/readline/bind.c: rl_translate_keyseq, _rl_skip_to_delim, rl_parse_and_bind"])
p("C71", "The popup list always has a visible selected item, and works on the right items",
  "In a popup list (history, directories, completions), for every sequence of keys and mouse input and every setting, except in the cases listed as violations: the selected item exists and is on one of the rows, and the rows are full if there are enough items; no input makes the list read outside of its arrays; arrow keys, Home, End and the mouse wheel select the item that they should and keep clink.scroll_offset items above and below it as far as there are any; a click selects the item in the row and does not scroll; searching selects the next item with the needle, going around, or finds that there is none; with a filter the list shows exactly the items with the needle in their order; deleting the needle again brings back the whole list with the item that was selected before; Enter gives the item that is shown as selected; deleting removes that item and keeps all others and their history numbers. Violations with witnesses: with the default settings PgDn goes up when the selected item is near the end of the list, and PgUp in a list of two items selects an item that does not exist; Ctrl-C in a filtered list copies another item; after deleting in a filtered list the selection can be outside of the list, and Ctrl-C reads outside of the array; the mouse wheel does that in a list that is filtered to nothing; F4 after a search without success does not filter.",
  "all items, settings, sizes, and all sequences of input",
  "Sequences of input and sizes of lists are unbounded; there are no tests of the popup list.",
  ["clink/lib/src/textlist_impl.cpp: activate, on_input, update_top, do_find, filter_items, clear_filter, set_top, get_scroll_offset, advance_index", "clink/lib/src/scroll_car.cpp: hittest_scroll_car"])
p("C72", "Enumerating files gives exactly the ones that were asked for",
  "For every pattern, every setting of a globber and everything that the disk may answer: the constructor reads inside of its strings and searches for the pattern without quotation marks, with the current directory of the drive for a pattern like c:x; next() gives the entries that were asked for (files, directories, hidden, system, dots, older than), each once and in their order, and then false for ever; the text is the directory, the name, and a backslash for a directory; the entries . and .. are given only if the pattern ends with one of them; the search handle is closed exactly once whatever is done, and not used afterwards or after its end; os.globfiles and os.globdirs give exactly the same entries in the main coroutine and in others, whatever the clock says, and a beginning of them after Ctrl-C; the type string has exactly the tags that the attributes say; only temporary files older than 30 minutes are purged.  Violation with witness: with quotation marks around the pattern a link whose target exists is reported as orphaned.",
  "all patterns, attributes, lists of entries, settings, clocks, and sequences of calls",
  "The answers of the disk and the clock are unbounded; the tests list a few small directories.",
  ["clink/core/src/globber.cpp: globber, next, next_file, close, older_than", "clink/lua/src/os_api.cpp: glob_next, glob_impl, globber_lua::next, add_type_tag", "clink/lua/scripts/core.lua: os.globfiles, os.globdirs", "clink/app/src/host/host.cpp: host::purge_old_files"])
p("C73", "In the suggestion list the selected suggestion exists and is visible",
  "For every number of suggestions, every setting, every amount of room, and every sequence of keys, wheel turns, clicks, resizes, new suggestions and removals, except in the cases listed as violations: the selected suggestion exists and is on one of the rows of the list, or the input line is selected and the list is at its beginning; the list has no empty rows; Up, Down, the wheel and a click select what they should; PgUp goes up, by at most a page and not beyond the first; PgDn goes down, by at most a page and not beyond the last; after a key there are as many suggestions above and below the selected one as clink.scroll_offset says, unless the list ends there; a click does not scroll.  Violations with witnesses: the wheel turned up while the input line is selected makes the index -2; PgDn in the margin at the end of the list goes up; removing the last suggestion leaves an empty row; a list that was hidden for lack of room comes back with empty rows; a list that had negative room does not come back.",
  "all counts, settings, numbers of rows, and sequences of events",
  "The sequences of keys and sizes are unbounded; the list has no tests with a mouse, resizing, or a scroll offset.",
  ["clink/lib/src/suggestionlist_impl.cpp: on_input, update_layout, update_top, update_display, get_scroll_offset, init_suggestions, on_terminal_resize, remove_history_index"])
p("C74", "Dragging beyond a list scrolls it at a limited rate that grows with time",
  "For every sequence of mouse events at any times, also across the wrap of the tick count: if each event is less than 2^32 milliseconds after the last scrolling, a list may scroll exactly if more than 15 milliseconds have passed since it last did; two scrolls are never closer than that; the speed is 1 in the first second after scrolling began, 3 in the next, and then 10, where scrolling begins with an event after more than a quarter of a second without scrolling; such an event always exists and is unique.  Violations with witnesses: the popup list never reports that it scrolled, so there the rate is not limited and the speed is always 1; exactly 2^32 milliseconds after the last scrolling an event does not scroll.",
  "all sequences of events and all times",
  "The times are unbounded and the tick count wraps only every 49.7 days; there are no tests of dragging.",
  ["clink/lib/src/scroll_helper.cpp: clear, on_input, on_scroll", "clink/lib/src/textlist_impl.cpp: textlist_impl::on_input", "clink/lib/src/selectcomplete_impl.cpp: on_input", "clink/lib/src/suggestionlist_impl.cpp: on_input"])

out = os.path.join(os.path.dirname(__file__), "..", "properties.jsonl")
with open(out, "w") as f:
    for x in P: f.write(json.dumps(x, ensure_ascii=False) + "\n")
print(len(P))
