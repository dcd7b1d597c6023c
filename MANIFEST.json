{
 "claims": [
  {
   "property": "C01",
   "status": "partial",
   "theorems": [
    "HyperIR.C01_parse_total",
    "HyperIR.C01_analysis_total_partial",
    "HyperIR.C01_only_crash",
    "HyperIR.C01_refuted"
   ],
   "note": "Tokenizer and parser: total for every text. Whole analysis: total for ASCII texts, and for every text the only crash is an annotation string that is cut inside a multi-byte character; C01_refuted shows that crash."
  },
  {
   "property": "C02",
   "status": "proved",
   "theorems": [
    "HyperIR.C02_token_spans"
   ],
   "note": "All texts, with or without errors."
  },
  {
   "property": "C03",
   "status": "proved",
   "theorems": [
    "HyperIR.C03_token_spelling",
    "HyperIR.C03_token_spelling_lexical",
    "HyperIR.C03_token_spelling_with_errors"
   ],
   "note": "Also shows what holds when there are lexical errors (the range may start with skipped text)."
  },
  {
   "property": "C04",
   "status": "proved",
   "theorems": [
    "HyperIR.C04_nothing_skipped",
    "HyperIR.C04_nothing_skipped_tokens"
   ],
   "note": ""
  },
  {
   "property": "C05",
   "status": "proved",
   "theorems": [
    "HyperIR.C05_print_tokenize"
   ],
   "note": ""
  },
  {
   "property": "C06",
   "status": "proved",
   "theorems": [
    "HyperIR.C06_names_longest",
    "HyperIR.C06_keywords_exact",
    "HyperIR.C06_sigils"
   ],
   "note": ""
  },
  {
   "property": "C07",
   "status": "proved",
   "theorems": [
    "HyperIR.C07_tree_mentions_tokens"
   ],
   "note": "All texts."
  },
  {
   "property": "C08",
   "status": "proved",
   "theorems": [
    "HyperIR.C08_source_order"
   ],
   "note": "All texts."
  },
  {
   "property": "C09",
   "status": "proved",
   "theorems": [
    "HyperIR.C09_modules_parse",
    "HyperIR.C09_print_parse",
    "HyperIR.C09_refuted_blank"
   ],
   "note": "All layouts of well-formed modules (comments, blanks, blank lines). C09_refuted_blank: a text of line ends or blanks only, although an empty module, is reported as an error, so the exception is needed."
  },
  {
   "property": "C10",
   "status": "proved",
   "theorems": [
    "HyperIR.C10_no_error_everything_understood",
    "HyperIR.C10_every_token_in_statement"
   ],
   "note": "All texts."
  },
  {
   "property": "C11",
   "status": "partial",
   "theorems": [
    "HyperIR.C11_broken_lines_partial",
    "HyperIR.C11_refuted_at_end"
   ],
   "note": "Proved when a statement follows the last broken line; refuted for a broken line at the end of the document (all statements are lost)."
  },
  {
   "property": "C12",
   "status": "proved",
   "theorems": [
    "HyperIR.C12_comments_ignored",
    "HyperIR.C12_insert_comment"
   ],
   "note": "Texts with the same non-comment tokens give the same statements up to positions; plus inserting a comment at the end of a line."
  },
  {
   "property": "C13",
   "status": "proved",
   "theorems": [
    "HyperIR.C13_branch_targets"
   ],
   "note": ""
  },
  {
   "property": "C14",
   "status": "partial",
   "theorems": [
    "HyperIR.C14_positions_partial",
    "HyperIR.C14_roundtrip_char",
    "HyperIR.C14_refuted_nonascii",
    "HyperIR.C14_refuted_formfeed",
    "HyperIR.C91_cursor",
    "HyperIR.C91_place"
   ],
   "note": "Holds for every offset and position up to which the text is ASCII without vertical tab/form feed, whatever follows; refuted behind other text (byte/character mix-up, ropey line breaks). C91 says exactly at which positions the conversion is right."
  },
  {
   "property": "C15",
   "status": "proved",
   "theorems": [
    "HyperIR.C15_ranges",
    "HyperIR.C15_distinct"
   ],
   "note": "For texts shorter than 2^32 characters, ranges in byte offsets"
  },
  {
   "property": "C16",
   "status": "partial",
   "theorems": [
    "HyperIR.C16_refuted",
    "HyperIR.C16_last_line_partial"
   ],
   "note": "The claim is false (refuted); beyond the end of the last line it holds"
  },
  {
   "property": "C17",
   "status": "partial",
   "theorems": [
    "HyperIR.C17_indexed_once_partial",
    "HyperIR.C17_refuted_clash"
   ],
   "note": "Full claim refuted for a name that is both a global variable and a function (C17_refuted_clash); proved for all other names, all texts."
  },
  {
   "property": "C18",
   "status": "proved",
   "theorems": [
    "HyperIR.C18_lookup",
    "HyperIR.C19_exact"
   ],
   "note": "At the definition of a variable with the name of a function two occurrences cover the same place; the lookup then returns the one of the function (C19_exact)."
  },
  {
   "property": "C19",
   "status": "partial",
   "theorems": [
    "HyperIR.C19_tables_agree_partial",
    "HyperIR.C19_exact",
    "HyperIR.C17_refuted_clash"
   ],
   "note": "C19_exact: the lookup at a position finds exactly the listed occurrences that cover it, except for definitions of a variable with the name of a function, for all texts; those are never found (C17_refuted_clash)."
  },
  {
   "property": "C20",
   "status": "proved",
   "theorems": [
    "HyperIR.C20_local_scope"
   ],
   "note": ""
  },
  {
   "property": "C21",
   "status": "partial",
   "theorems": [
    "HyperIR.C21_no_symbol",
    "HyperIR.C21_references_partial",
    "HyperIR.C21_declaration_partial",
    "HyperIR.C22_definition_partial",
    "HyperIR.C21_refuted_clash",
    "HyperIR.C21_refuted_nonascii",
    "HyperIR.C94_answers"
   ],
   "note": "For symbols up to whose last occurrence the text is ASCII without vertical tab/form feed (whatever follows), except for definitions of a variable with the name of a function (go-to-definition additionally under the conditions of C22). Counterexamples: C21_refuted_clash, C21_refuted_nonascii. What the reply is in every document, whatever its characters and names, is described exactly by C94_answers."
  },
  {
   "property": "C22",
   "status": "partial",
   "theorems": [
    "HyperIR.C22_external_defs",
    "HyperIR.C22_definition_partial",
    "HyperIR.C22_refuted_order",
    "HyperIR.C22_refuted_line_zero",
    "HyperIR.C22_refuted_line_zero_release",
    "HyperIR.C94_answers"
   ],
   "note": "C22_external_defs: which annotations count, for every text. C22_definition_partial: the answer is exact for annotations after the declaration with line > 0 and paths without tabs and line ends, in text that is plain ASCII up to the last occurrence of the symbol, except for definitions of a variable with the name of a function. The order of the statements matters (C22_refuted_order) and line 0 underflows (C22_refuted_line_zero). What the reply is in every document, whatever its characters and names, is described exactly by C94_answers."
  },
  {
   "property": "C23",
   "status": "partial",
   "theorems": [
    "HyperIR.C23_decode_partial",
    "HyperIR.highlights_unique",
    "HyperIR.C23_refuted_nonascii",
    "HyperIR.C95_server"
   ],
   "note": "The number, order, lengths and types are right for every text, the positions as far as the text is ASCII without vertical tab/form feed; in such text the highlighted places are uniquely determined (highlights_unique). Behind other text they are shifted (C23_refuted_nonascii). What is shown in every document, whatever its characters, is described exactly by C95_server."
  },
  {
   "property": "C24",
   "status": "proved",
   "theorems": [
    "HyperIR.C24_no_underflow"
   ],
   "note": "For every text of less than 2^32 characters (the protocol's numbers are 32 bit)."
  },
  {
   "property": "C25",
   "status": "partial",
   "theorems": [
    "HyperIR.C25_rename_partial",
    "HyperIR.C25_refuted_clash",
    "HyperIR.C25_refuted_nonascii",
    "HyperIR.C25_refuted_garbage",
    "HyperIR.C94_answers"
   ],
   "note": "Proved for every position up to which the text is plain ASCII (but not at definitions of a variable with the name of a function): one edit per occurrence (at its range, as far as the text is plain ASCII), none else, no overlap, and (without lexical errors) each replaces exactly the old name. Refuted: definitions of a variable with the name of a function (the function is renamed, too), non-ASCII text, text that is no token directly before the symbol (the edit removes it). What the reply is in every document, whatever its characters and names, is described exactly by C94_answers."
  },
  {
   "property": "C26",
   "status": "partial",
   "theorems": [
    "HyperIR.C26_new_names_partial",
    "HyperIR.C26_rejected_partial",
    "HyperIR.C26_refuted_empty",
    "HyperIR.C26_refuted_sigil",
    "HyperIR.C93_exact",
    "HyperIR.C94_answers"
   ],
   "note": "That nothing crashes and that accepted names are well formed is proved for all requested names (shifts are in C32) except the empty one and a bare sigil, for which the server crashes (refuted). That every invalid name is rejected: text that is plain ASCII up to the position, except for definitions of a variable with the name of a function. C93_exact says exactly when the server crashes, C94_answers what it replies otherwise, in every document."
  },
  {
   "property": "C27",
   "status": "partial",
   "theorems": [
    "HyperIR.C27_tokens_partial",
    "HyperIR.C27_refuted_colon",
    "HyperIR.C27_refuted_keyword",
    "HyperIR.C27_refuted_garbage"
   ],
   "note": "Proved for every document that is plain ASCII up to the last occurrence of the symbol, with no unrecognizable text directly in front of the renamed names (unrecognizable text elsewhere is allowed), every symbol except variables with the name of a function, and every name that reads back as one token of the renamed kind: the edits are disjoint and apply, the resulting text lexes to the same tokens except that exactly the name tokens at the occurrences carry the new name, and as much text as before is unrecognizable. Missing: accepted names that do not read back as one token (trailing colon, keywords used as labels), refuted by the first two witnesses; names with unrecognizable text in front of them (C27_refuted_garbage: the text is removed and the name grows together with the word before it)."
  },
  {
   "property": "C28",
   "status": "partial",
   "theorems": [
    "HyperIR.C28_back_partial",
    "HyperIR.C28_refuted_number",
    "HyperIR.C28_refuted_garbage"
   ],
   "note": "Proved for documents that are plain (ASCII without vertical tabs and form feeds) up to the last of the renamed names, whatever is below, with no unrecognizable text directly in front of the renamed names (unrecognizable text elsewhere is allowed), unambiguous symbols, new names that can be read back (see C27; labels may have the name of a word that makes up instructions), and old names that would be accepted as new names. C28_refuted_number: a name that starts with a digit can be renamed, but renaming back is refused. C28_refuted_garbage: unrecognizable text directly in front of the name is removed by the rename and does not come back."
  },
  {
   "property": "C29",
   "status": "partial",
   "theorems": [
    "HyperIR.C29_numbered_partial",
    "HyperIR.C29_refuted_wide",
    "HyperIR.C93_exact"
   ],
   "note": "Proved for identifiers whose last non-numeric character is ASCII; otherwise the server crashes (refuted). C93_exact says exactly which requests crash for this reason."
  },
  {
   "property": "C30",
   "status": "partial",
   "theorems": [
    "HyperIR.C30_shift_partial",
    "HyperIR.C30_action_partial",
    "HyperIR.C30_refuted_negative",
    "HyperIR.C94_answers"
   ],
   "note": "Proved when all shifted numbers are non-negative and below 2^63 (documents that are plain ASCII up to the last occurrence of a symbol of the kind and scope, not at definitions of a variable with the name of a function), for renames and for the code action. Refuted: negative results lose their sign. What the reply is in every document, whatever its characters and names, is described exactly by C94_answers."
  },
  {
   "property": "C31",
   "status": "partial",
   "theorems": [
    "HyperIR.C31_no_merge_partial",
    "HyperIR.C31_refuted_gap",
    "HyperIR.C31_refuted_leading_zeros"
   ],
   "note": "Proved (documents that are plain ASCII up to the last occurrence of a symbol of the kind and scope, not at definitions of a variable with the name of a function, numbers that fit as in C30) for numbers without leading zeros and no unshifted symbol at a number the shift reaches (always so for shifts upwards). Refuted otherwise."
  },
  {
   "property": "C32",
   "status": "partial",
   "theorems": [
    "HyperIR.C32_no_overflow_partial",
    "HyperIR.C32_rejected",
    "HyperIR.C32_refuted_sum",
    "HyperIR.C32_refuted_sum_release",
    "HyperIR.C32_refuted_sign",
    "HyperIR.C93_exact",
    "HyperIR.C94_answers"
   ],
   "note": "Proved (documents that are plain ASCII up to the last occurrence of a symbol of the kind and scope, not at definitions of a variable with the name of a function) when no sum reaches 2^63; shifts by 2^63 or more are rejected. Refuted: the largest number plus one crashes (debug) or wraps (release); two signs crash. C93_exact says exactly when the server crashes, C94_answers what it replies otherwise, in every document."
  },
  {
   "property": "C33",
   "status": "partial",
   "theorems": [
    "HyperIR.C33_offered_partial",
    "HyperIR.C33_eager_lazy",
    "HyperIR.C33_refuted_nonascii",
    "HyperIR.C94_answers",
    "HyperIR.C93_exact"
   ],
   "note": "Eager and lazy clients obtain the same edits: proved for all states. Offered iff on a numbered symbol: proved for text that is plain ASCII up to the position and the end of the symbol there; refuted for a wide character before the number (crash). The title names the symbol under the cursor (at the definition of a variable with the name of a function: the function). When the action is offered, in every document: C94_answers; when the server crashes instead: C93_exact."
  },
  {
   "property": "C34",
   "status": "partial",
   "theorems": [
    "HyperIR.C34_stale_partial",
    "HyperIR.C34_unknown",
    "HyperIR.C34_refuted_stale",
    "HyperIR.C93_exact",
    "HyperIR.C94_answers"
   ],
   "note": "Proved if the new text has at least as many functions, ASCII names and no largest number. Refuted: after removing the function, resolving crashes. C93_exact says exactly when the server crashes, C94_answers what it replies otherwise, in every document."
  },
  {
   "property": "C35",
   "status": "proved",
   "theorems": [
    "HyperIR.C35_graph"
   ],
   "note": ""
  },
  {
   "property": "C36",
   "status": "proved",
   "theorems": [
    "HyperIR.C36_incoming"
   ],
   "note": ""
  },
  {
   "property": "C37",
   "status": "proved",
   "theorems": [
    "HyperIR.C37_code_lens"
   ],
   "note": "Also proved: exactly the functions with exactly one definition have a lens, one each."
  },
  {
   "property": "C38",
   "status": "proved",
   "theorems": [
    "HyperIR.C38_undefined"
   ],
   "note": "Exactly one report per undefined use, for every document; the range is stated for uses up to which the text is plain ASCII (see C15 for the others)."
  },
  {
   "property": "C39",
   "status": "proved",
   "theorems": [
    "HyperIR.C39_duplicates"
   ],
   "note": "Exactly one report per redefinition, with a reference to the first definition in source order."
  },
  {
   "property": "C40",
   "status": "proved",
   "theorems": [
    "HyperIR.C40_branches"
   ],
   "note": "Exactly one report per branching or phi instruction without targets."
  },
  {
   "property": "C41",
   "status": "partial",
   "theorems": [
    "HyperIR.C41_syntax_errors_partial",
    "HyperIR.C41_refuted_end_of_input",
    "HyperIR.C95_server"
   ],
   "note": "Every syntax error that is not located at the end of the input is shown, in order, with its custom message or the beginning of the standard one; that the range is the right one is stated for errors up to whose end the text is plain ASCII and that do not start or end between CR and LF. Errors at the end of the input have the range strlen..strlen+1, which has no editor range, and are dropped: refuted with a witness. What is shown in every document, whatever its characters, is described exactly by C95_server."
  },
  {
   "property": "C42",
   "status": "proved",
   "theorems": [
    "HyperIR.C42_outline"
   ],
   "note": ""
  },
  {
   "property": "C43",
   "status": "partial",
   "theorems": [
    "HyperIR.C43_folding_partial",
    "HyperIR.C43_refuted_unlabelled",
    "HyperIR.C43_refuted_undefined",
    "HyperIR.C95_server"
   ],
   "note": "Everything but the number of basic blocks stated for a function: the code counts label names, which differs for unlabelled blocks, equal labels and undefined branch targets (C43_refuted_...). What is shown in every document, whatever its characters, is described exactly by C95_server."
  },
  {
   "property": "C44",
   "status": "proved",
   "theorems": [
    "HyperIR.C44_end_hints"
   ],
   "note": ""
  },
  {
   "property": "C45",
   "status": "proved",
   "theorems": [
    "HyperIR.C45_backtrace_total",
    "HyperIR.frameOf_unique",
    "HyperIR.C45_refuted_opaque"
   ],
   "note": "For every JSON value; FrameOf determines the frame (frameOf_unique). Workspace folders whose URI has no path crash (C45_refuted_opaque), they are excluded by the quantifier."
  },
  {
   "property": "C46",
   "status": "proved",
   "theorems": [
    "HyperIR.C46_relevant_frame"
   ],
   "note": ""
  },
  {
   "property": "C47",
   "status": "partial",
   "theorems": [
    "HyperIR.C47_markdown_partial",
    "HyperIR.C47_refuted_newline"
   ],
   "note": "Length and absence of special characters proved; line ends are kept by the code, so an empty line ends the code span (C47_refuted_newline)."
  },
  {
   "property": "C48",
   "status": "proved",
   "theorems": [
    "HyperIR.C48_last_component"
   ],
   "note": ""
  },
  {
   "property": "C49",
   "status": "partial",
   "theorems": [
    "HyperIR.C49_short_name_partial",
    "HyperIR.C49_short_name_any",
    "HyperIR.C49_refuted_nonascii",
    "HyperIR.C49_refuted_48",
    "HyperIR.C93_exact"
   ],
   "note": "Full statement for ASCII names; for all names whenever there is no crash. Non-ASCII names can crash (C49_refuted_nonascii). C93_exact says exactly which hints crash for this reason."
  },
  {
   "property": "C50",
   "status": "partial",
   "theorems": [
    "HyperIR.C50_inside_workspace_partial",
    "HyperIR.C50_refuted_tab"
   ],
   "note": "For paths without tabs and line ends. With them the URL crate can be made to leave the folder (C50_refuted_tab)."
  },
  {
   "property": "C51",
   "status": "proved",
   "theorems": [
    "HyperIR.C51_latest_text",
    "HyperIR.C51_not_opened",
    "HyperIR.C51_schedules"
   ],
   "note": "Up to the iteration order of hash maps, which is a parameter of every message. The replies of a server with any history equal those of a server that only opened the latest text; C51_schedules shows that interleaved handlers have the effect of handling the messages in order of arrival."
  },
  {
   "property": "C52",
   "status": "proved",
   "theorems": [
    "HyperIR.C52_state",
    "HyperIR.C52_requests",
    "HyperIR.C52_repeat",
    "HyperIR.C52_requests_removable"
   ],
   "note": ""
  },
  {
   "property": "C53",
   "status": "proved",
   "theorems": [
    "HyperIR.C53_unknown_document"
   ],
   "note": ""
  },
  {
   "property": "C54",
   "status": "partial",
   "theorems": [
    "HyperIR.C54_single_change_partial",
    "HyperIR.C54_accepted_partial",
    "HyperIR.C54_refuted_empty",
    "HyperIR.C54_refuted_several",
    "HyperIR.C54_refuted_two_changes",
    "HyperIR.C95_server"
   ],
   "note": "Proved for one change. False otherwise: an empty list panics, and of several changes only the first is used. C95_server describes the effect of every list of changes."
  },
  {
   "property": "C55",
   "status": "proved",
   "theorems": [
    "HyperIR.C55_published",
    "HyperIR.C55_only_changes",
    "HyperIR.C55_last_published"
   ],
   "note": "Diagnostics are compared up to order (hash maps)."
  },
  {
   "property": "C56",
   "status": "partial",
   "theorems": [
    "HyperIR.C56_blocked_partial",
    "HyperIR.C56_never_blocked_partial",
    "HyperIR.C56_terminates",
    "HyperIR.C56_final",
    "HyperIR.C56_progress_partial",
    "HyperIR.C56_idle_partial",
    "HyperIR.C56_crash_partial",
    "HyperIR.C56_blocked_forever",
    "HyperIR.C56_refuted_change_during_graph",
    "HyperIR.C56_refuted_four_graphs"
   ],
   "note": "The server can only block on a change while a graph is displayed for a document in the same shard of the document map; that case does block forever (refutation). Based on a model of DashMap's shard locks and tower-lsp's single task."
  },
  {
   "property": "C57",
   "status": "proved",
   "theorems": [
    "HyperIR.C57_initialize",
    "HyperIR.C57_lazy_effect"
   ],
   "note": ""
  },
  {
   "property": "C58",
   "status": "proved",
   "theorems": [
    "HyperIR.C58_prepare_rename"
   ],
   "note": "Proved for every position up to which the text is plain ASCII; that the range is the right one, if the text is plain ASCII up to the end of the symbol."
  },
  {
   "property": "C59",
   "status": "proved",
   "theorems": [
    "HyperIR.C59_backtrace_hints",
    "HyperIR.C59_crash",
    "HyperIR.C59_refuted_crash"
   ],
   "note": "C59_refuted_crash shows that the remaining crash happens (see C49)."
  },
  {
   "property": "C60",
   "status": "partial",
   "theorems": [
    "HyperIR.C60_references_partial",
    "HyperIR.C60_fresh_needed",
    "HyperIR.C27_refuted_garbage"
   ],
   "note": "Proved for documents that are plain (ASCII without vertical tabs and form feeds) up to the last of the renamed names, whatever is below, with no unrecognizable text directly in front of the renamed names (unrecognizable text elsewhere is allowed), unambiguous symbols, new names that can be read back (see C27). Labels may have the name of a word that makes up instructions. C60_fresh_needed: a name used in the same scope already merges two symbols; C86 says what happens then."
  },
  {
   "property": "C61",
   "status": "proved",
   "theorems": [
    "HyperIR.C61_same_answers"
   ],
   "note": "Places behind non-ASCII text are excluded because positions are translated wrongly there (C14)."
  },
  {
   "property": "C62",
   "status": "proved",
   "theorems": [
    "HyperIR.C62_undefined_nowhere"
   ],
   "note": "Anything may stand below the use. Uses below non-ASCII text are excluded because positions are translated wrongly there (C14)."
  },
  {
   "property": "C63",
   "status": "partial",
   "theorems": [
    "HyperIR.C63_one_line_partial",
    "HyperIR.C63_refuted_string",
    "HyperIR.C63_refuted_crlf",
    "HyperIR.C63_refuted_cr",
    "HyperIR.C63_refuted_nonascii"
   ],
   "note": "Proved for plain ASCII documents, with Unix or Windows line ends, without line ends inside string literals, without comments in front of Windows line ends and without carriage returns alone, with or without errors. Refuted otherwise: C63_refuted_string (a string over two lines), C63_refuted_crlf (a comment before a Windows line end includes the carriage return), C63_refuted_cr (a carriage return alone), C63_refuted_nonascii (names behind other characters)."
  },
  {
   "property": "C64",
   "status": "proved",
   "theorems": [
    "HyperIR.C64_order",
    "HyperIR.C64_history"
   ],
   "note": "The model lists the expected tokens of a syntax error in a fixed order; in the code they come out of a hash set, so the wording of these messages may vary in addition."
  },
  {
   "property": "C65",
   "status": "proved",
   "theorems": [
    "HyperIR.C65_causes",
    "HyperIR.C65_survives_partial",
    "HyperIR.C65_refuted_rename",
    "HyperIR.C65_refuted_opaque",
    "HyperIR.C65_refuted_text"
   ],
   "note": "Fatal (Spec/Crashes) lists the causes; each one stands for a crash shown by a refutation of C01, C22, C26, C29, C32, C34, C45, C54 or C59, and C65_refuted_* show that a history can end the server. C65_survives_partial is the consequence for histories in which no cause can arise (what is missing there are the causes themselves)."
  },
  {
   "property": "C66",
   "status": "partial",
   "theorems": [
    "HyperIR.C66_references_partial",
    "HyperIR.C66_action_partial",
    "HyperIR.C66_refuted_kind",
    "HyperIR.C66_refuted_keyword",
    "HyperIR.C31_refuted_gap",
    "HyperIR.C31_refuted_leading_zeros"
   ],
   "note": "Proved for shifts that satisfy ShiftSafe: the numbers fit and have no leading zeros, no symbol is numbered in the gap, shifted names are not both a function and a global variable, no new name belongs to a symbol of another kind, no new label is a type, no unrecognizable text directly in front of a shifted name; and for documents that are plain (ASCII without vertical tabs and form feeds) up to the last name in the scope, whatever is below. Refuted otherwise: a function shifted to the name of a global variable (C66_refuted_kind), a label shifted to a type (C66_refuted_keyword), leading zeros and gaps (C31)."
  },
  {
   "property": "C67",
   "status": "partial",
   "theorems": [
    "HyperIR.C67_back_partial",
    "HyperIR.C67_refuted_gap",
    "HyperIR.C67_refuted_leading_zeros"
   ],
   "note": "Proved under the conditions of C66. Refuted for symbols in the gap and leading zeros."
  },
  {
   "property": "C68",
   "status": "partial",
   "theorems": [
    "HyperIR.C68_rename_partial",
    "HyperIR.C68_shift_partial",
    "HyperIR.C68_refuted_gap",
    "HyperIR.C68_refuted_keyword",
    "HyperIR.C68_refuted_taken",
    "HyperIR.C68_refuted_garbage"
   ],
   "note": "For names not yet used in the scope and safe shifts (conditions of C60 and C66), in documents that are plain (ASCII without vertical tabs and form feeds) up to the last of the names concerned, whatever is below, with no unrecognizable text directly in front of the renamed names (unrecognizable text elsewhere is allowed); C68_rename_partial and C68_shift_partial prove it for every such document, history and iteration order. Missing: other characters above a renamed name (the edits themselves are then misplaced, C14), and labels with the name of a word that makes up instructions in documents with statements that cannot be read (no counterexample is known; without such statements the labels may have these names, too). Refuted for unrecognizable text directly in front of the name (C68_refuted_garbage: its report disappears), shifts onto numbers in use, for labels that become types, and for new names that are in use, where the server makes the edits and the diagnostics change."
  },
  {
   "property": "C69",
   "status": "partial",
   "theorems": [
    "HyperIR.C69_rename_partial",
    "HyperIR.C69_shift_partial",
    "HyperIR.C69_refuted_taken",
    "HyperIR.C69_refuted_keyword"
   ],
   "note": "For names not yet used in the scope and safe shifts (conditions of C60 and C66), in documents that are plain (ASCII without vertical tabs and form feeds) up to the last of the names concerned, whatever is below, with no unrecognizable text directly in front of the renamed names (unrecognizable text elsewhere is allowed); proved there for every document, server state and iteration order. Missing: other characters above a renamed name (the edits themselves are then misplaced, C14). Refuted for new names that are in use and for labels that become types."
  },
  {
   "property": "C70",
   "status": "proved",
   "theorems": [
    "HyperIR.C70_documents_compose",
    "HyperIR.C70_documents_compose_ascii",
    "HyperIR.C70_comment_lines",
    "HyperIR.C70_needs_line_feed",
    "HyperIR.C70_needs_readable"
   ],
   "note": "The hypotheses are part of the statement; two witnesses show that the line feed and the readability of the second document are needed."
  },
  {
   "property": "C71",
   "status": "proved",
   "theorems": [
    "HyperIR.C71_requests",
    "HyperIR.C71_diagnostics",
    "HyperIR.C71_refuted_non_ascii",
    "HyperIR.C71_needs_readable"
   ],
   "note": "All requests and the reported problems, for every block of ASCII comment lines above every document of which at least one statement is understood. Both conditions are part of the statement; C71_refuted_non_ascii and C71_needs_readable show that neither can be dropped."
  },
  {
   "property": "C72",
   "status": "proved",
   "theorems": [
    "HyperIR.C72_requests",
    "HyperIR.C72_diagnostics",
    "HyperIR.C72_refuted_non_ascii",
    "HyperIR.C72_refuted_beyond",
    "HyperIR.C72_refuted_column",
    "HyperIR.C72_refuted_blank"
   ],
   "note": "For every pair of documents; needed restrictions shown by C72_refuted_non_ascii, C72_refuted_beyond, C72_refuted_column, C72_refuted_blank."
  },
  {
   "property": "C73",
   "status": "proved",
   "theorems": [
    "HyperIR.C73_rename_navigation"
   ],
   "note": "For every document below 2^32 characters; go-to-definition may crash (C22), which is stated."
  },
  {
   "property": "C74",
   "status": "proved",
   "theorems": [
    "HyperIR.C74_function_views"
   ],
   "note": "For every document below 2^32 characters."
  },
  {
   "property": "C75",
   "status": "proved",
   "theorems": [
    "HyperIR.C75_navigation_reported",
    "HyperIR.C75_reported_navigation",
    "HyperIR.C75_refuted_clash"
   ],
   "note": "The converse is for text that is plain up to the duplicates and for names that are not both function and global variable, as stated; C75_refuted_clash shows why."
  },
  {
   "property": "C76",
   "status": "partial",
   "theorems": [
    "HyperIR.C76_rename_again_partial",
    "HyperIR.C76_refuted_colon",
    "HyperIR.C76_fresh_needed"
   ],
   "note": "Proved for text below 2^32 characters that is plain (ASCII without vertical tabs and form feeds) up to the last of the renamed names, whatever is below, with no unrecognizable text directly in front of the renamed names (unrecognizable text elsewhere is allowed), names that read back as one name (labels are no keyword or type), and names of either a function or a global variable. Missing: the other documents and accepted names; C76_refuted_colon shows that the claim is false for an accepted name ending in a colon, C76_fresh_needed that the first name must be new in its scope."
  },
  {
   "property": "C77",
   "status": "partial",
   "theorems": [
    "HyperIR.C77_rename_order_partial",
    "HyperIR.C77_refuted_keyword"
   ],
   "note": "Proved for text below 2^32 characters that is plain (ASCII without vertical tabs and form feeds) up to the last of the renamed names, whatever is below, with no unrecognizable text directly in front of the renamed names (unrecognizable text elsewhere is allowed), names that read back as one name (labels are no keyword or type), and names of either a function or a global variable. Missing: the other documents and accepted names; C77_refuted_keyword shows that the claim is false for a label renamed to a keyword."
  },
  {
   "property": "C78",
   "status": "partial",
   "theorems": [
    "HyperIR.C78_shift_again_partial",
    "HyperIR.C78_refuted_gap"
   ],
   "note": "Proved for text below 2^32 characters that is plain (ASCII without vertical tabs and form feeds) up to the last name in the scope, whatever is below, and a symbol that is not the name of both a function and a global variable, if the first shift takes no name already in use and turns no label into a type and no shifted name has unrecognizable text directly in front of it (ShiftSafe), the sum fits into 64 bits, no shifted number becomes negative or overflows (ShiftFits), and the sum turns no label into a type. C78_refuted_gap shows that the claim is false if the first shift takes a name in use. Missing: other characters above a shifted name (the edits themselves are then misplaced, C14)."
  },
  {
   "property": "C79",
   "status": "proved",
   "theorems": [
    "HyperIR.C79_shared",
    "HyperIR.C79_first",
    "HyperIR.C79_second",
    "HyperIR.C79_refuted_clash"
   ],
   "note": "Found and renamed places of a symbol in the whole are those in the parts, for symbols that occur in both documents and for symbols of one only; C79_refuted_clash shows why names that are both function and variable are excluded."
  },
  {
   "property": "C80",
   "status": "proved",
   "theorems": [
    "HyperIR.C80_views",
    "HyperIR.C80_lenses",
    "HyperIR.C80_graph",
    "HyperIR.C80_hints",
    "HyperIR.C80_refuted_annotation"
   ],
   "note": "Restrictions (plain ASCII, no cross references to annotations for hints) are part of the statement; C80_refuted_annotation shows that the last one is needed."
  },
  {
   "property": "C81",
   "status": "proved",
   "theorems": [
    "HyperIR.C81_undefined",
    "HyperIR.C81_duplicates",
    "HyperIR.C81_others",
    "HyperIR.C81_refuted_clash"
   ],
   "note": "The exception for names that denote both a function and a global variable is part of the statement; C81_refuted_clash shows that it is needed."
  },
  {
   "property": "C82",
   "status": "proved",
   "theorems": [
    "HyperIR.C82_requests",
    "HyperIR.C82_diagnostics",
    "HyperIR.C82_refuted_line_ends"
   ],
   "note": "C82_requests: every request, at corresponding places (SameSpot), is answered alike (AlikeReply: same content, places at the starts and ends of the same tokens). C82_diagnostics: the problems are matched one to one. A line end that follows a comment may start between a CR and its LF, where editors have no position; nothing is promised about the start of a syntax error reported exactly there. C82_refuted_line_ends: line ends are part of the code."
  },
  {
   "property": "C83",
   "status": "proved",
   "theorems": [
    "HyperIR.C83_requests",
    "HyperIR.C83_diagnostics",
    "HyperIR.C83_refuted_open"
   ],
   "note": "C83_requests: every request, at corresponding places, is answered alike when the two texts have the same tokens after dropping comments and all line ends that follow a line end (lineTokens; line ends after a comma or a type name are kept). C83_diagnostics: the problems are matched one to one, syntax errors included. C83_refuted_open: after a comma the number of line ends matters, so the exception is needed."
  },
  {
   "property": "C84",
   "status": "proved",
   "theorems": [
    "HyperIR.C84_requests",
    "HyperIR.C84_diagnostics"
   ],
   "note": "From C83: the lexer of the whole is cut at the line end, the inserted lines vanish from the lines of tokens, and the corresponding places of C83 become lines moved down. C83_refuted_open shows why the line must be complete."
  },
  {
   "property": "C85",
   "status": "proved",
   "theorems": [
    "HyperIR.C85_unread",
    "HyperIR.C85_lost",
    "HyperIR.C85_blank",
    "HyperIR.C85_every",
    "HyperIR.C85_applies"
   ],
   "note": "What is said about places is restricted to places up to which the text is plain ASCII. C85_unread: documents with tokens; C85_lost: unrecognizable text at the end; C85_blank: nothing but blanks; C85_every: there are no other documents. C85_applies: the hypotheses of C85_unread hold whenever the tokenizer returns tokens. The message is stated up to the list of expected tokens, whose order comes from a hash set."
  },
  {
   "property": "C86",
   "status": "proved",
   "theorems": [
    "HyperIR.C86_taken",
    "HyperIR.C86_refuted_kind"
   ],
   "note": "C86_refuted_kind: the condition on the kinds is needed; a variable renamed to the name of a function has its uses taken for uses of the function. Examples: a parameter renamed to another parameter of the same function (C86_taken), and to a name that only another function uses (C60_references_partial)."
  },
  {
   "property": "C87",
   "status": "proved",
   "theorems": [
    "HyperIR.C87_below",
    "HyperIR.C87_above",
    "HyperIR.C87_graph"
   ],
   "note": "Follows from C79 and C80, applied to both versions."
  },
  {
   "property": "C88",
   "status": "proved",
   "theorems": [
    "HyperIR.C88_below",
    "HyperIR.C88_settled",
    "HyperIR.C88_settled_ascii",
    "HyperIR.C88_needs_no_comma",
    "HyperIR.C88_needs_closed_quotes"
   ],
   "note": "conditions (no open quote, no comma at the end of the broken text) are part of the statement and shown to be needed"
  },
  {
   "property": "C89",
   "status": "partial",
   "theorems": [
    "HyperIR.Instances.C89_refuted_taken",
    "HyperIR.C89_rename_partial",
    "HyperIR.C89_shift_partial"
   ],
   "note": "Proved for every document below 2^32 characters: for renames to a name that is fresh in its scope and reads back as one token, and for shifts that reach no name in use, of symbols that are not the name of both a function and a global variable, with no unrecognizable text directly in front of the renamed names and plain ASCII up to the last of them. The hints are compared for equal files and workspace folders and for annotations no renamed occurrence stands in; the reader of annotations is arbitrary in the model, so their text has to be the same. Refuted without freshness: renaming @f to the name of another function makes the lenses of both disappear."
  },
  {
   "property": "C90",
   "status": "proved",
   "theorems": [
    "HyperIR.C90_accepted_iff",
    "HyperIR.C90_one_tree",
    "HyperIR.Instances.C90_refuted_comma"
   ],
   "note": "For texts with tidy lines, as the statement says; C90_refuted_comma shows that the parser reads past the end of a line that ends with a comma."
  },
  {
   "property": "C91",
   "status": "proved",
   "theorems": [
    "HyperIR.C91_cursor",
    "HyperIR.C91_place",
    "HyperIR.C91_symbol",
    "HyperIR.C91_references"
   ],
   "note": "An exact account of C14 and C21 outside of ASCII; the range of validity of the other properties (plain text up to a place) is therefore the largest possible one for the places reported."
  },
  {
   "property": "C92",
   "status": "proved",
   "theorems": [
    "HyperIR.C92_recovery",
    "HyperIR.C92_reported"
   ],
   "note": "For all texts with the stated shape of lines; lexical errors are allowed. The other lines are excluded because the parser reads past their end (C90_refuted_comma) or reads them with an error."
  },
  {
   "property": "C93",
   "status": "proved",
   "theorems": [
    "HyperIR.C93_exact",
    "HyperIR.C93_sessions"
   ],
   "note": "The restrictions in the quantifier (`Regular`) are hypotheses; C65 gives causes without them."
  },
  {
   "property": "C94",
   "status": "proved",
   "theorems": [
    "HyperIR.C94_answers",
    "HyperIR.C94_sessions",
    "HyperIR.C94_determined"
   ],
   "note": "Every reply (also refusals, and replies in documents with characters outside of ASCII, unusual line ends and syntax errors) is characterised; when there is no reply is C93. The places are given by ShownPlace, which is what the code computes for every text (offsetToLspPos_shown); that these places are the right ones only for plain text is recorded in C16 and C91. C94_determined: two replies that fit the description are the same, up to the order of edits."
  },
  {
   "property": "C95",
   "status": "proved",
   "theorems": [
    "HyperIR.C95_server",
    "HyperIR.C95_sessions",
    "HyperIR.C95_total",
    "HyperIR.C95_views_determined",
    "HyperIR.C95_determined",
    "HyperIR.C95_only"
   ],
   "note": "C95_server: the effect of every message in every reachable state is as described by Effect (Spec/Views). C95_sessions: the same for each message of a session. C95_total: every message either crashes as described by C93 or has such an effect. C95_determined, C95_views_determined, C95_only: two effects that fit the description are the same (SameServer, SameView in Spec/Determined), so what the server does is the only thing that fits it."
  },
  {
   "property": "C96",
   "status": "proved",
   "theorems": [
    "HyperIR.C96_replies",
    "HyperIR.C96_once",
    "HyperIR.C96_sent",
    "HyperIR.C96_complete",
    "HyperIR.C96_order",
    "HyperIR.C96_last_diagnostics"
   ],
   "note": "In the model of Model/Locks.lean (one task, suspended only at an await that is not ready; the channel to the client keeps the order of sending). C96_replies: what is sent or returned is the reply of run. C96_once, C96_complete: each message is answered once. C96_sent: diagnostics and graphs in order of arrival. C96_order: which answers can be overtaken. C96_last_diagnostics: for messages with one change each (C54)."
  },
  {
   "property": "C97",
   "status": "proved",
   "theorems": [
    "HyperIR.C97_step",
    "HyperIR.C97_stops",
    "HyperIR.C97_sessions",
    "HyperIR.C97_differ",
    "HyperIR.C97_agree"
   ],
   "note": "All messages, states and sessions. The exact criterion for differences is for regular states (texts below 4 GiB, paths without tabs and line ends), where C93 gives the causes of a panic."
  },
  {
   "property": "C98",
   "status": "proved",
   "theorems": [
    "HyperIR.C98_reading",
    "HyperIR.C98_reported",
    "HyperIR.C98_determined",
    "HyperIR.C98_places",
    "HyperIR.C98_places_lost",
    "HyperIR.C98_told",
    "HyperIR.C98_accepted",
    "HyperIR.C98_one_way"
   ],
   "note": "No restriction on the text: what C90 and C92 say about tidy texts is here said about all, with the order in which the forms of an instruction are tried. C98_accepted is the general form of C90, C98_reading and C98_reported that of C92. C98_one_way: every sequence of tokens is read in exactly one way. C98_determined, C98_places, C98_places_lost and C98_told: the description leaves no choice about tokens, statements, the places of unrecognizable text and the errors about it, and the number of syntax errors; only what is listed as expected, and the exact place of a syntax error within an unreadable stretch, stay open."
  },
  {
   "property": "C99",
   "status": "proved",
   "theorems": [
    "HyperIR.C99_clear",
    "HyperIR.C99_whole",
    "HyperIR.Instances.C99_cut"
   ],
   "note": "C99_clear is an equivalence for every text that does not end the server; C99_cut is the witness for the second case, a document cut short of which a line is silently taken for a global variable."
  },
  {
   "property": "C100",
   "status": "proved",
   "theorems": [
    "HyperIR.C100_edits",
    "HyperIR.C100_sessions"
   ],
   "note": "Proved for every message and every document below 4 GiB, in every state reached by a session."
  },
  {
   "property": "C101",
   "status": "proved",
   "theorems": [
    "HyperIR.C101_names",
    "HyperIR.C101_mnemonics_matter"
   ],
   "note": "No restriction on the texts: they may have syntax errors and unrecognizable text (what was recognized is compared). C101_mnemonics_matter: identifiers other than labels are not free."
  },
  {
   "property": "C102",
   "status": "proved",
   "theorems": [
    "HyperIR.C102_named",
    "HyperIR.C102_inside",
    "HyperIR.C102_sessions",
    "HyperIR.C102_refuted_tab"
   ],
   "note": "`C102_named` holds in every state. `C102_sessions` is about sessions from the start of the server; `C102_inside` about any state whose documents are analyses of texts. The links in tooltips of backtraces are text and described in C59. A tab in a file name leads out of the workspace: `C102_refuted_tab`."
  }
 ]
}