{"id": "C01", "title": "Analysing a document never crashes or hangs", "statement": "Opening or changing a document to any text terminates and never panics: the tokenizer, the parser (including error recovery), the indexer and all diagnostics producers return a value.", "quantifier": "every document text (any length, any characters)", "why_tests_cant": "A crash or a diverging repetition can hide behind any one of infinitely many texts.", "anchors": ["src/hir_tokenizer.rs:tokenizer", "src/hir_parser.rs:parse_from_str", "src/hir_index.rs:create_index", "src/main.rs:Backend::on_change"]}
{"id": "C02", "title": "Token spans are ordered, disjoint, non-empty and inside the text", "statement": "The tokens reported for a text have non-empty half-open ranges that lie inside the text, appear in source order and never overlap.", "quantifier": "every document text", "why_tests_cant": "Only a proof covers every text, in particular texts with lexical errors and recovery.", "anchors": ["src/hir_tokenizer.rs:tokenizer"]}
{"id": "C03", "title": "A token's range spells the token", "statement": "In a text without lexical errors, the characters at a token's range are exactly the token's spelling (name with its sigil, keyword, number, 0x-prefixed hex number, quoted string, punctuation character, newline; a comment runs from # up to but excluding the next line feed).", "quantifier": "every document text without lexical errors, every token", "why_tests_cant": "Spelling/range agreement must hold for every interleaving of token kinds.", "anchors": ["src/hir_tokenizer.rs:tokenizer", "src/hir_tokenizer.rs:Token"]}
{"id": "C04", "title": "Nothing is skipped silently", "statement": "Every character of the document that is neither a blank nor a tab belongs to some token, unless an error was reported.", "quantifier": "every document text", "why_tests_cant": "A skipped character can occur anywhere.", "anchors": ["src/hir_tokenizer.rs:tokenizer", "src/hir_parser.rs:parse_from_str"]}
{"id": "C05", "title": "Tokenizing is the inverse of printing tokens", "statement": "Printing any list of well-formed tokens, separated by blanks, and tokenizing the result gives back exactly the same tokens and no error.", "quantifier": "every list of well-formed tokens (comments followed by a newline)", "why_tests_cant": "Round trip over an infinite domain.", "anchors": ["src/hir_tokenizer.rs:tokenizer"]}
{"id": "C06", "title": "Names extend as far as possible and keywords are exact", "statement": "A name (identifier, %local, @global, !debug reference) always extends to the longest admissible spelling, colons belong to a name only when a name character follows them, and an identifier is reported as keyword, type or function modifier iff it is spelled exactly like one.", "quantifier": "every name token of every text; that keywords and sigils decide the kind of token: every text without lexical errors (with them the range of a token may begin with skipped text, see C03)", "why_tests_cant": "Longest match has to be shown against every possible continuation.", "anchors": ["src/hir_tokenizer.rs:tokenizer"]}
{"id": "C07", "title": "The syntax tree only mentions tokens of the document", "statement": "Every name or range in the parsed statements (names, arguments, labels, branch targets, debug references, brackets) is a token of the document of the expected kind with exactly that range.", "quantifier": "every token stream / document text", "why_tests_cant": "The parser backtracks and recovers; only a proof excludes fabricated names in all runs.", "anchors": ["src/hir_parser.rs:parser", "src/hir_parser.rs:Statement"]}
{"id": "C08", "title": "Statements and their parts come in source order and do not overlap", "statement": "Statements are reported in source order, the token ranges of two statements never overlap, and the basic blocks and instructions of a function lie inside the function's range, in source order.", "quantifier": "every document text", "why_tests_cant": "Order must survive every recovery path.", "anchors": ["src/hir_parser.rs:parser", "src/hir_index.rs:FunctionBody"]}
{"id": "C09", "title": "Well-formed modules parse completely", "statement": "For every module built from global variables, function declarations, function definitions (with all instruction forms), dependencies and debug annotations, parsing its printed form yields exactly these statements and no error.", "quantifier": "every well-formed module in every layout (blanks, comments, blank lines), except that a module without statements is not laid out as blanks or line ends only, which is reported as an error", "why_tests_cant": "Completeness over an infinite grammar.", "anchors": ["src/hir_parser.rs:parser"]}
{"id": "C10", "title": "No reported error means everything was understood", "statement": "If parsing reports no error, then every token other than comments and blank lines is part of a reported statement.", "quantifier": "every document text", "why_tests_cant": "Absence of silently dropped statements cannot be sampled.", "anchors": ["src/hir_parser.rs:parser", "src/hir_parser.rs:parse_from_str"]}
{"id": "C11", "title": "A broken line does not hide the rest of the document", "statement": "If some lines of a document cannot be parsed, the statements before and after them are still reported, and at least one error is reported.", "quantifier": "every document consisting of good statements and broken lines", "why_tests_cant": "Recovery has to be right at every position of the broken line, including the end of the file.", "anchors": ["src/hir_parser.rs:parser", "src/hir_parser.rs:parse_from_str"]}
{"id": "C12", "title": "Comments do not matter to the parser", "statement": "Adding or removing comments anywhere between tokens does not change the reported statements.", "quantifier": "every token stream and every set of comments inserted into it", "why_tests_cant": "Comments can appear between any two tokens.", "anchors": ["src/hir_parser.rs:parse_from_str"]}
{"id": "C13", "title": "Branch targets are extracted from every branching instruction", "statement": "For `br`, conditional `br`, `*br` with cont/overflow, `switch` and `phi` in their documented shape, exactly the named labels are reported as basic block references, in order, whatever the operands are.", "quantifier": "every operand list and every number of cases", "why_tests_cant": "Switch and phi have unboundedly many cases and arbitrary operands.", "anchors": ["src/hir_parser.rs:parser", "src/hir_parser.rs:Instruction"]}
{"id": "C14", "title": "Editor positions and document offsets correspond", "statement": "Converting a document offset to an editor position and back gives the same offset, and every position inside a line converts to the offset of that character.", "quantifier": "every document text and every offset in it", "why_tests_cant": "Depends on every line-break combination and character width.", "anchors": ["src/lsp_utils.rs:lsp_pos_to_offset", "src/lsp_utils.rs:offset_to_lsp_pos"]}
{"id": "C15", "title": "Ranges sent to the editor are well formed", "statement": "For every range inside the document the conversion succeeds, the start position is not after the end position, and conversion preserves order and containment of ranges.", "quantifier": "every document text of less than 2^32 characters and every range", "why_tests_cant": "Monotonicity is a statement about all pairs of offsets.", "anchors": ["src/lsp_utils.rs:range_to_lsp"]}
{"id": "C16", "title": "Positions beyond the end of a line", "statement": "A position whose character lies beyond the end of its line is treated as the end of that line (LSP), so it never refers to a symbol on a later line.", "quantifier": "every document and every position", "why_tests_cant": "Clients may send any position.", "anchors": ["src/lsp_utils.rs:lsp_pos_to_offset"]}
{"id": "C17", "title": "Every symbol occurrence is indexed exactly once", "statement": "Every @global and !debug token of the document, and every %local token inside a function definition, is listed as exactly one of declaration, definition or use of the symbol with that name (of the enclosing function for locals).", "quantifier": "every document text", "why_tests_cant": "Completeness over all tokens of all documents.", "anchors": ["src/hir_index.rs:create_index", "src/hir_index.rs:HIRIndex"]}
{"id": "C18", "title": "Looking up a position finds the symbol under the cursor", "statement": "A lookup at a position returns a symbol iff an indexed symbol occurrence covers the position, and then it is that occurrence, with its name, kind and scope (the occurrence of the function, if a variable has the name of a function).", "quantifier": "every document text and every position", "why_tests_cant": "All positions of all documents.", "anchors": ["src/hir_index.rs:find_symbol_at_position"]}
{"id": "C19", "title": "Lookup tables agree", "statement": "Every occurrence found by position is listed under the same name, kind and role in the symbol tables, and the tables' entries are found by position; navigation and rename requests at any position therefore never crash on a missing entry.", "quantifier": "every document text and every position", "why_tests_cant": "The two tables are maintained by independent updates; agreement is an invariant over all update histories.", "anchors": ["src/hir_index.rs:add_internal", "src/main.rs:get_use_def_ranges", "src/main.rs:rename"]}
{"id": "C20", "title": "Local symbols never leak between functions", "statement": "Labels and local variables are only related to occurrences inside the same function definition, and a local variable token is attributed to the function definition that contains it.", "quantifier": "every document with any number of functions", "why_tests_cant": "Scoping has to hold for every pair of functions.", "anchors": ["src/hir_index.rs:create_index"]}
{"id": "C21", "title": "Go to definition / declaration / references are exact", "statement": "At any position inside a symbol, go-to-definition answers exactly the ranges of the symbol's definitions, go-to-declaration exactly its declarations and find-references exactly its uses, each as the editor range of that token.", "quantifier": "every document text, every position", "why_tests_cant": "Exactness is a two-sided claim over all documents.", "anchors": ["src/main.rs:get_use_def_ranges", "src/main.rs:goto_definition", "src/main.rs:references"]}
{"id": "C22", "title": "External definitions", "statement": "Go-to-definition on a declared function also offers the source location named by its debug annotation `\"file:line\"`, resolved against the workspace folders, at zero-based line line-1, whatever the order of the statements.", "quantifier": "every declaration/annotation pair, every list of workspace folders with hierarchical (path-carrying) URIs", "why_tests_cant": "Any order of statements and any line number may occur.", "anchors": ["src/hir_index.rs:create_index", "src/main.rs:get_use_def_ranges", "src/backtrace.rs:resolve_relative_path"]}
{"id": "C23", "title": "Semantic tokens decode to the tokens of the document", "statement": "Decoding the relative encoding returned for syntax highlighting gives, in order, the absolute start position, length and type of every comment, number, string, %local and @global name, type, keyword and modifier token, and nothing else.", "quantifier": "every document text", "why_tests_cant": "Delta encoding must be right for every sequence of lines and columns.", "anchors": ["src/semantic_token.rs:semantic_tokens_from_tokens", "src/semantic_token.rs:convert_to_lsp_tokens", "src/main.rs:semantic_tokens_full"]}
{"id": "C24", "title": "Semantic token encoding never underflows and uses declared types", "statement": "Computing the relative encoding never subtracts a larger from a smaller number, and every reported type is an index into the legend announced at initialization.", "quantifier": "every document text of less than 2^32 characters", "why_tests_cant": "Underflow is a single-input event.", "anchors": ["src/semantic_token.rs:convert_to_lsp_tokens", "src/semantic_token.rs:LEGEND_TYPE"]}
{"id": "C25", "title": "Rename edits exactly the occurrences", "statement": "Renaming a symbol returns one edit for every declaration, definition and use of the symbol and no other edit; the edits do not overlap and each replaces exactly the old name.", "quantifier": "every document, every symbol, every accepted new name", "why_tests_cant": "Missing a single occurrence in a single document corrupts the program.", "anchors": ["src/rename.rs:get_rename_edits", "src/main.rs:rename"]}
{"id": "C26", "title": "Rename rejects invalid names without crashing", "statement": "A rename request with an invalid new name is answered with an error and never crashes; an accepted name carries the sigil of the symbol's kind exactly once and contains only name characters.", "quantifier": "every requested new name", "why_tests_cant": "Names are arbitrary client strings.", "anchors": ["src/main.rs:rename"]}
{"id": "C27", "title": "After a rename the document reads as before with the new name", "statement": "Applying the edits of an accepted rename and re-tokenizing gives the same sequence of tokens, except that exactly the renamed occurrences carry the new name.", "quantifier": "every document, every symbol, every accepted new name", "why_tests_cant": "Needs the interaction of edit application, neighbouring characters and longest match in all documents.", "anchors": ["src/main.rs:rename", "src/rename.rs:get_rename_edits", "src/hir_tokenizer.rs:tokenizer"]}
{"id": "C28", "title": "Renaming back restores the document", "statement": "Renaming a symbol to a name not yet used in its scope (its function body, or the names of the whole document) and then renaming it back gives the original text.", "quantifier": "every document, symbol and fresh name", "why_tests_cant": "Round trip over all documents.", "anchors": ["src/main.rs:rename", "src/rename.rs:get_rename_edits"]}
{"id": "C29", "title": "Numbered identifiers split into prefix and number", "statement": "An identifier is treated as numbered iff its longest suffix of numeric characters consists of decimal digits that fit the number range; prefix and digits concatenate to the identifier and the prefix does not end in a numeric character.", "quantifier": "every identifier", "why_tests_cant": "Arbitrary identifiers, including non-ASCII digits and overflowing numbers.", "anchors": ["src/rename.rs:extract_number_from_identifier"]}
{"id": "C30", "title": "Shift renames move exactly the later numbers", "statement": "A relative rename by k (and the shift code action, k = 1) changes, among the symbols of the same kind and scope, exactly those numbered at least as high as the selected one, to the same prefix with the number increased by k.", "quantifier": "every document, symbol, shift", "why_tests_cant": "All symbols and all shifts.", "anchors": ["src/rename.rs:get_shift_edits", "src/main.rs:rename", "src/main.rs:do_code_action_resolve"]}
{"id": "C31", "title": "Shift renames never merge two symbols", "statement": "Two different symbols of the same kind and scope have different names after a shift.", "quantifier": "every document, symbol, shift (positive or negative)", "why_tests_cant": "A collision needs one particular pair of names and one particular shift.", "anchors": ["src/rename.rs:get_shift_edits"]}
{"id": "C32", "title": "Shift arithmetic never overflows", "statement": "Relative renames never overflow: every accepted shift of every number is computed exactly or rejected with an error.", "quantifier": "every shift and every number", "why_tests_cant": "Overflow happens only at the extremes of the number range.", "anchors": ["src/rename.rs:get_shift_edits", "src/main.rs:rename"]}
{"id": "C33", "title": "Code actions resolve to the same edit eagerly and lazily", "statement": "The shift code action is offered iff the cursor is on a numbered symbol (and nothing is selected), and its title names the kind of that symbol; a client with lazy resolution obtains by resolving it exactly the edit an eager client receives, as long as the document is unchanged.", "quantifier": "every document, position and client capability", "why_tests_cant": "Two code paths for all documents.", "anchors": ["src/main.rs:code_action", "src/main.rs:do_code_action_resolve"]}
{"id": "C34", "title": "Resolving a stale code action is safe", "statement": "Resolving a previously offered code action after the document has changed never crashes the server.", "quantifier": "every history of edits between offering and resolving", "why_tests_cant": "Depends on the history of document versions.", "anchors": ["src/main.rs:do_code_action_resolve", "src/rename.rs:get_shift_edits"]}
{"id": "C35", "title": "The control flow graph has exactly the branches", "statement": "The rendered graph of a function contains the edge a -> b iff a block labelled a contains a branching instruction that names b; every emitted line is well formed.", "quantifier": "every analysed document, every function name for which the command succeeds (the first definition of that name)", "why_tests_cant": "All graphs.", "anchors": ["src/control_flow_graph.rs:create_cfg_dot_visualization"]}
{"id": "C36", "title": "Incoming-edge hints agree with the control flow graph", "statement": "The hint shown at a block lists exactly the labelled predecessors of the block in the control flow graph, each once, in source order.", "quantifier": "whenever the hints request is answered: every document of less than 2^32 characters that can be analysed; that ranges and positions are the right ones: as far as the document is in plain ASCII", "why_tests_cant": "Two independent computations over all functions.", "anchors": ["src/hir_index.rs:create_index", "src/control_flow_graph.rs:create_cfg_dot_visualization", "src/main.rs:inlay_hint"]}
{"id": "C37", "title": "Every function with a code lens can be visualized", "statement": "For every offered visualize code lens, executing its command finds the function and produces its graph (no 'not found' error) as long as the document is unchanged.", "quantifier": "every document of less than 2^32 characters that can be analysed; that ranges and positions are the right ones: as far as the document is in plain ASCII", "why_tests_cant": "The lens and the command search different tables.", "anchors": ["src/main.rs:code_lens", "src/main.rs:execute_command"]}
{"id": "C38", "title": "Undefined symbols are reported at every use", "statement": "A symbol that has neither definition nor declaration gets exactly one 'undefined symbol' diagnostic per use at the range of that use; defined or declared symbols get none.", "quantifier": "every document of less than 2^32 characters that can be analysed; that the range is the right one: as far as the document is in plain ASCII", "why_tests_cant": "All symbols of all documents.", "anchors": ["src/diagnostics.rs:diagnostics_from_index"]}
{"id": "C39", "title": "Duplicate definitions are reported", "statement": "Every definition of a symbol after its first one gets exactly one 'already defined' diagnostic at its range that refers to the first definition; symbols with at most one definition get none.", "quantifier": "every document of less than 2^32 characters that can be analysed; that the range is the right one: as far as the document is in plain ASCII", "why_tests_cant": "All symbols, all numbers of definitions.", "anchors": ["src/diagnostics.rs:diagnostics_from_index"]}
{"id": "C40", "title": "Branches without extracted targets are reported", "statement": "Every branching or phi instruction without extracted targets gets exactly one diagnostic at the instruction name; all other instructions get none.", "quantifier": "every document of less than 2^32 characters that can be analysed; that the range is the right one: as far as the document is in plain ASCII", "why_tests_cant": "All instructions.", "anchors": ["src/diagnostics.rs:diagnostics_from_statements"]}
{"id": "C41", "title": "Every syntax error is shown", "statement": "Every syntax error found while analysing the document is published as a diagnostic with a range inside the document.", "quantifier": "every document", "why_tests_cant": "Errors can occur anywhere, in particular at the end of the input.", "anchors": ["src/diagnostics.rs:diagnostics_from_parser", "src/hir_parser.rs:parse_from_str", "src/main.rs:on_change"]}
{"id": "C42", "title": "The outline lists exactly the definitions", "statement": "The document outline contains exactly one entry per global variable definition and per function definition; the selected name range lies inside the entry's range.", "quantifier": "every document of less than 2^32 characters that can be analysed; that ranges and positions are the right ones: as far as the document is in plain ASCII", "why_tests_cant": "All documents.", "anchors": ["src/main.rs:document_symbol"]}
{"id": "C43", "title": "Folding ranges", "statement": "There is exactly one folding range per function definition and per basic block, block ranges lie inside their function's range, start line is not after end line, and the collapsed text states the number of basic blocks resp. instructions.", "quantifier": "every document of less than 2^32 characters that can be analysed; that ranges and positions are the right ones: as far as the document is in plain ASCII", "why_tests_cant": "All documents.", "anchors": ["src/main.rs:folding_range"]}
{"id": "C44", "title": "End-of-function hints", "statement": "Exactly one hint per function definition is placed right after the closing bracket; it shows the function's name and links to the name in the definition.", "quantifier": "whenever the hints request is answered: every document of less than 2^32 characters that can be analysed; that ranges and positions are the right ones: as far as the document is in plain ASCII", "why_tests_cant": "All documents.", "anchors": ["src/main.rs:inlay_hint"]}
{"id": "C45", "title": "Backtrace parsing is total and keeps every frame", "statement": "Any JSON value is handled: a value with a `backtrace` array gives exactly one frame per entry, in order, with the symbol (or a fall-back) and file/line iff the link has the form file:line with a 32-bit line; anything else gives no backtrace.", "quantifier": "every JSON value, every list of workspace folders with hierarchical (path-carrying) URIs", "why_tests_cant": "Arbitrary nested JSON.", "anchors": ["src/backtrace.rs:parse_backtrace_from_json"]}
{"id": "C46", "title": "The most relevant frame is chosen by preference", "statement": "The highlighted frame is the first frame of the most preferred matching symbol pattern; otherwise the first frame outside the code generator; otherwise none. The chosen index is always valid.", "quantifier": "every list of frames", "why_tests_cant": "All permutations of frames.", "anchors": ["src/backtrace.rs:identify_relevant_frames"]}
{"id": "C47", "title": "Symbol names cannot break out of the Markdown code span", "statement": "In hint tooltips a symbol name is rendered with the same number of characters and contains no character that could end the code span or start a link.", "quantifier": "every symbol string", "why_tests_cant": "Arbitrary strings.", "anchors": ["src/backtrace.rs:sanitize_markdown_code", "src/backtrace.rs:format_frame_as_md"]}
{"id": "C48", "title": "Shortened paths are the last path component", "statement": "The displayed file name contains no path separator, is a suffix of the path, and is everything after the last separator.", "quantifier": "every path", "why_tests_cant": "All strings.", "anchors": ["src/backtrace.rs:shorten_filepath"]}
{"id": "C49", "title": "Shortened symbol names never crash and are short", "statement": "The label of a backtrace hint is at most 50 characters, never crashes, equals the symbol if it is short and otherwise is a prefix followed by an ellipsis.", "quantifier": "every symbol name", "why_tests_cant": "Arbitrary strings, in particular non-ASCII.", "anchors": ["src/backtrace.rs:shorten_name", "src/backtrace.rs:inlay_hint_for_backtrace"]}
{"id": "C50", "title": "Resolved paths stay inside the workspace", "statement": "A relative path is resolved to the first workspace folder that contains it, and the resolved location always lies inside that folder, whatever `.` or `..` components the path contains.", "quantifier": "every path and every list of workspace folders with hierarchical (path-carrying) URIs", "why_tests_cant": "Adversarial paths.", "anchors": ["src/backtrace.rs:resolve_relative_path"]}
{"id": "C51", "title": "Requests answer for the latest text", "statement": "After any history of opens and changes, a request for a document is answered exactly as if the document had only been opened with its latest text, independent of all other documents.", "quantifier": "every history of notifications and requests that the server survives, in which each change notification carries one full-text change (see C54 for the others); every interleaving of the handlers", "why_tests_cant": "Arbitrary histories over several documents.", "anchors": ["src/main.rs:on_change", "src/main.rs:Backend"]}
{"id": "C52", "title": "Requests never modify documents", "statement": "Requests (navigation, symbols, rename, code actions, hints, lenses, commands) leave all documents and settings unchanged, so repeating a request gives the same answer.", "quantifier": "every history of requests", "why_tests_cant": "All interleavings of requests.", "anchors": ["src/main.rs:Backend"]}
{"id": "C53", "title": "Requests for unknown documents are answered gracefully", "statement": "Requests for documents that were never opened are answered with null or an error and never crash.", "quantifier": "every request, every history in which the document was not opened", "why_tests_cant": "All requests and histories.", "anchors": ["src/main.rs:Backend"]}
{"id": "C54", "title": "A change notification applies all of its changes", "statement": "After a change notification the document is the text that results from applying its content changes in order (full-text synchronization: the last one), and a notification without changes leaves the document alone.", "quantifier": "every list of content changes", "why_tests_cant": "Any number of changes may be sent.", "anchors": ["src/main.rs:did_change"]}
{"id": "C55", "title": "Diagnostics are published for the stored text", "statement": "Each open/change publishes diagnostics once, for the same URI, version and text that subsequent requests see; the last published diagnostics are those of the latest text.", "quantifier": "every history that the server survives, in which each change notification carries one full-text change (see C54)", "why_tests_cant": "Histories.", "anchors": ["src/main.rs:on_change"]}
{"id": "C56", "title": "The server keeps responding while a graph is displayed", "statement": "While the client processes a show-graph request, the server can still process document changes; no sequence of client messages can block the server forever.", "quantifier": "every schedule of client messages", "why_tests_cant": "Deadlocks depend on the schedule.", "anchors": ["src/main.rs:execute_command", "src/main.rs:on_change"]}
{"id": "C57", "title": "Workspace folders and capabilities are taken from initialization", "statement": "The search roots are the announced workspace folders (or, without them, the root URI), and lazy code-action resolution is used iff the client supports both resolving the edit and preserving data.", "quantifier": "every initialize request", "why_tests_cant": "All combinations of optional capabilities.", "anchors": ["src/main.rs:initialize"]}
{"id": "C58", "title": "Preparing a rename offers exactly the symbol under the cursor", "statement": "On a symbol occurrence the prepare-rename request answers the editor range of exactly that occurrence and a rename is not refused for lack of a symbol; at every other position it answers null and a rename is refused.", "quantifier": "every document of less than 2^32 characters, every position inside it up to which (and up to the end of the symbol there) it is in plain ASCII", "why_tests_cant": "All texts and positions.", "anchors": ["src/main.rs:prepare_rename", "src/main.rs:rename"]}
{"id": "C59", "title": "Backtrace hints show exactly the backtraces of the instructions", "statement": "There is exactly one backtrace hint per instruction whose debug reference names an annotation holding JSON with a backtrace, in source order and right behind the reference; the annotation's text is its source text (of the last such annotation), the label shows the most relevant frame and the tooltip lists all frames in order with their source links. The request crashes only if the most relevant symbol cannot be cut after 48 bytes.", "quantifier": "every document in plain ASCII of less than 2^32 characters, every JSON reader and file system, every list of workspace folders with hierarchical (path-carrying) URIs", "why_tests_cant": "Arbitrary documents, JSON values and symbol names.", "anchors": ["src/main.rs:inlay_hint", "src/backtrace.rs:inlay_hint_for_backtrace", "src/backtrace.rs:format_frame_as_md", "src/hir_index.rs:create_index"]}
{"id": "C60", "title": "A rename to a new name keeps what every name refers to", "statement": "After a rename to a name not yet used in its scope (its function body, or the names of the whole document), the document parses into the same number of statements with one symbol occurrence for each occurrence before, in the same order, of the same kind, role and scope; exactly those of the renamed symbol carry the new name, and two occurrences belong to the same symbol exactly if they did before.", "quantifier": "every document, symbol and fresh name", "why_tests_cant": "The parser must be insensitive to the new name at every place where the symbol may occur.", "anchors": ["src/main.rs:rename", "src/hir_parser.rs:parse_from_str", "src/hir_index.rs:create_index"]}
{"id": "C61", "title": "All occurrences of a symbol answer alike", "statement": "From every occurrence of a symbol the same references, the same declarations and the same definitions are found, a rename to the same name makes the same edits (or is refused or crashes in the same way), and the same code actions are offered.", "quantifier": "every document of less than 2^32 characters, every two positions inside occurrences of one symbol up to whose ends the document is in plain ASCII, except for definitions of a global variable with the name of a function (see C19)", "why_tests_cant": "All pairs of positions of all documents.", "anchors": ["src/main.rs:get_use_def_ranges", "src/main.rs:rename", "src/main.rs:code_action"]}
{"id": "C62", "title": "Undefined symbols are exactly those navigation finds nothing for", "statement": "A use of a symbol is reported as undefined exactly if both go-to-definition and go-to-declaration answer an empty list there.", "quantifier": "every document of less than 2^32 characters, every position inside a use of a symbol, up to which the text is plain ASCII, every workspace and file system", "why_tests_cant": "Two independent features must agree on all documents.", "anchors": ["src/main.rs:get_use_def_ranges", "src/diagnostics.rs:diagnostics_from_index"]}
{"id": "C63", "title": "Highlighted places lie on one line and do not overlap", "statement": "Every semantic token ends on the line it starts on, and before the next token starts, as the protocol demands of clients without support for multiline or overlapping tokens.", "quantifier": "every document", "why_tests_cant": "All texts, including line ends inside strings and comments.", "anchors": ["src/semantic_token.rs:convert_to_lsp_tokens", "src/hir_tokenizer.rs:tokenizer"]}
{"id": "C64", "title": "Answers do not depend on the order of hash maps", "statement": "Whether the server survives a history of messages, its state afterwards, and every answer and published diagnostic do not depend on the order in which hash maps are iterated, except for the order of the elements of diagnostics, outlines, code lenses and edits.", "quantifier": "every history of messages, every two assignments of iteration orders to the steps", "why_tests_cant": "The order is random and differs from run to run.", "anchors": ["src/main.rs:Backend", "src/rename.rs:get_shift_edits", "src/diagnostics.rs:diagnostics_from_index"]}
{"id": "C65", "title": "The server ends only for known causes", "statement": "If the server ends with a panic, then on a message with one of these causes: a change notification without changes; a text with a debug annotation whose value cannot be cut out at its offsets; semantic tokens of a text of 4 GiB; go to the definition of a function located at line 0 (with overflow checks) or in a workspace with a non-hierarchical folder; a backtrace hint with a symbol that cannot be cut after 48 bytes or in such a workspace; a rename to an empty name or a bare sigil; a renumbering with a name whose number follows a non-ASCII character or with a number that does not fit (with overflow checks); a code action to be resolved for a function the document does not have. Every history without these survives.", "quantifier": "every history of messages, every file system, JSON reader, build configuration and iteration order", "why_tests_cant": "All histories; a crash takes all documents of the user down.", "anchors": ["src/main.rs:Backend", "src/rename.rs:get_shift_edits", "src/backtrace.rs:inlay_hint_for_backtrace", "src/hir_index.rs:create_index"]}
{"id": "C66", "title": "A shift keeps what every name refers to", "statement": "After the edits of a shift, by a relative rename or by the code action, have been applied, the document has the same number of statements and the same symbol occurrences in the same order: the shifted ones carry the new names, the others their old ones, and two of them belong to the same symbol exactly if they did before.", "quantifier": "every document and every numbered symbol and shift", "why_tests_cant": "The combination of the edits, the editor, the tokenizer, the parser and the index on all documents.", "anchors": ["src/rename.rs:get_shift_edits", "src/main.rs:rename", "src/main.rs:code_action_resolve", "src/hir_index.rs:create_index"]}
{"id": "C67", "title": "A shift can be undone by the opposite shift", "statement": "Shifting a symbol by k and then, in the resulting document and at any occurrence of the same symbol, by -k gives the original text.", "quantifier": "every document, every numbered symbol and every shift", "why_tests_cant": "Two renames, the editor and two analyses in a row, on all documents.", "anchors": ["src/rename.rs:get_shift_edits", "src/main.rs:rename"]}
{"id": "C68", "title": "Renames and shifts change no diagnostics", "statement": "After the edits of a rename or a shift have been applied, the server publishes the same diagnostics for the new text as for the old one: they correspond one to one, stay on the same lines, point to the same lines and carry the same messages, except that messages about undefined symbols and duplicate definitions mention the new names.", "quantifier": "every document and every symbol, new name and shift", "why_tests_cant": "The combination of the edits, the editor, the tokenizer, the parser with its error recovery and the diagnostics on all documents.", "anchors": ["src/main.rs:on_change", "src/main.rs:rename", "src/diagnostics.rs:diagnostics_from_index", "src/diagnostics.rs:diagnostics_from_statements", "src/hir_parser.rs:parse_from_str"]}
{"id": "C69", "title": "Renames and shifts keep the structure shown", "statement": "After the edits of a rename or a shift have been applied, the folding ranges of the document are the same, the outline has the same entries on the same lines, with the new names, and the graph of every function has the same edges, with the new labels, under the new name of the function.", "quantifier": "every document and every symbol, new name and shift", "why_tests_cant": "The combination of the edits, the editor, the analysis and three other features on all documents.", "anchors": ["src/main.rs:folding_range", "src/main.rs:document_symbol", "src/main.rs:execute_command", "src/main.rs:rename", "src/control_flow_graph.rs:create_cfg_dot_visualization"]}
{"id": "C70", "title": "Documents compose", "statement": "An error-free document that is empty or ends with a line feed, followed by any document of which at least one statement (or everything) is understood, is read as the two documents one after the other: tokens and statements are those of the first and those of the second moved by the length of the first, and the errors are those of the second moved likewise. Lines with only blanks and comments in front of a document of which at least one statement is understood just move it.", "quantifier": "all pairs of documents", "why_tests_cant": "A statement about the tokenizer and the parser with its error recovery on all pairs of texts; no finite set of texts shows that what is read of a statement depends on nothing in front of it.", "anchors": ["src/hir_parser.rs:parse_from_str", "src/hir_parser.rs:parser", "src/hir_tokenizer.rs:tokenizer"]}
{"id": "C71", "title": "Comments above a document move its answers down and change nothing else", "statement": "Let a document of which something is understood be placed below n lines that hold only blanks and ASCII comments. Every request about it (definitions, declarations, references, rename, code actions, outline, folding, hints, lenses, highlighting, control flow graph), asked n lines further down, crashes or fails exactly if it did before, and otherwise has the same answer with every range in the document n lines further down, up to the order of unordered parts; links into other files stay, and the highlighting only gains comments in the first n lines. The problems reported are the same ones, n lines further down.", "quantifier": "all blocks of ASCII comment lines (with LF or CRLF), all documents below them (any characters, less than 2^32 in total), all requests, positions and environments", "why_tests_cant": "It relates two runs of the whole pipeline (tokenizer, parser with recovery, index, position conversion, every handler) on arbitrary texts; a test compares a few fixed pairs, while one absolute offset or line kept anywhere would show only for some.", "anchors": ["src/main.rs:Backend::on_change", "src/main.rs:get_use_def_ranges", "src/hir_index.rs:create_index", "src/lsp_utils.rs:range_to_lsp", "src/lsp_utils.rs:lsp_pos_to_offset", "src/hir_parser.rs:parse_from_str", "src/semantic_token.rs:convert_to_lsp_tokens"]}
{"id": "C72", "title": "Comments at line ends, trailing blanks and the line end style change no answer", "statement": "Let two ASCII documents without lexical errors have the same code line by line and differ only in what follows the code of their lines: blanks, a comment, and whether the line ends in LF or CRLF. Every request about one of them, asked with a position that both have, crashes or fails for one exactly if it does for the other, and otherwise has the same answer with the same ranges, up to the order of unordered parts and the highlighting of the comments themselves. The same problems are reported (apart from documents of blanks only); at most, a syntax error starts at another column of the same line, and without syntax errors the reports are equal up to order.", "quantifier": "all pairs of such documents of less than 2^32 characters, all requests, positions and environments", "why_tests_cant": "It relates two runs of the whole pipeline on arbitrary pairs of texts in which every offset behind the first remark differs; a test compares a few fixed pairs, while one offset taken relative to a comment, or a carriage return counted as a column, would show only for some.", "anchors": ["src/main.rs:Backend::on_change", "src/main.rs:get_use_def_ranges", "src/hir_index.rs:create_index", "src/lsp_utils.rs:range_to_lsp", "src/lsp_utils.rs:lsp_pos_to_offset", "src/hir_parser.rs:parse_from_str", "src/semantic_token.rs:convert_to_lsp_tokens"]}
{"id": "C73", "title": "Rename edits exactly what navigation shows", "statement": "At any position of an open document, rename, references, go-to-declaration and go-to-definition agree. If the server offers no range for a rename there, none of them has an answer. If it offers one, that range is the range of one of the references, declarations or definitions in the document and the origin of all links; and every accepted rename to a new name edits exactly the ranges of the references, declarations and definitions in the document, as often as they are shown, with one and the same text. Definitions in other files, to which links lead, are points at line starts and are not edited.", "quantifier": "all documents of less than 2^32 characters, plain or not, all positions, server states, environments and names", "why_tests_cant": "It relates five handlers for arbitrary texts, among them texts where the positions themselves are wrong; a test compares fixed answers of one handler at a time.", "anchors": ["src/main.rs:Backend::prepare_rename", "src/main.rs:Backend::rename", "src/main.rs:get_use_def_ranges", "src/main.rs:Backend::goto_definition", "src/main.rs:Backend::goto_declaration", "src/main.rs:Backend::references", "src/rename.rs:get_rename_edits"]}
{"id": "C74", "title": "The views of a function agree", "statement": "The outline, the folding ranges, the hints at the ends of functions and the code lenses of an open document show the same functions. The first folding ranges cover the lines of the functions in the outline, in the same order; the last hints stand at their ends, in the same order, show their names and link to them; and there is exactly one lens for each function in the outline that shares its name with no other one, at the name and with the name as argument.", "quantifier": "all documents of less than 2^32 characters, plain or not, all server states and environments", "why_tests_cant": "Four handlers walk the index separately, each skipping what it cannot convert; only for all texts does it follow that they never skip different functions.", "anchors": ["src/main.rs:Backend::document_symbol", "src/main.rs:Backend::folding_range", "src/main.rs:Backend::inlay_hint", "src/main.rs:Backend::code_lens", "src/hir_index.rs:create_index"]}
{"id": "C75", "title": "Duplicate definitions are reported where navigation finds several definitions", "statement": "If go-to-definition leads to several definitions in the document (that is, to places that are not shown as points at line starts, as those in other files are), every one but the first is reported as a duplicate, with a reference to the first. Conversely, at every definition that is reported as a duplicate, up to which the text is plain, and whose name is not that of a function and a global variable, go-to-definition (unless it crashes) leads first to the definition that the report refers to, and to the reported definition among the others.", "quantifier": "all documents of less than 2^32 characters, all positions, server states and environments; the converse where the text is plain up to the duplicates of the name, and for names that are not both function and global variable", "why_tests_cant": "The problems come from walking all tables, navigation from a lookup by position; that they mean the same definitions in the same order is a relation over all documents.", "anchors": ["src/diagnostics.rs:diagnostics_from_index", "src/main.rs:get_use_def_ranges", "src/main.rs:Backend::goto_definition", "src/hir_index.rs:create_index"]}
{"id": "C76", "title": "Renaming twice is renaming once", "statement": "If a symbol is renamed to a name not yet used in its scope (its function body, or the names of the whole document), and the renamed symbol is then renamed to a third name, the text is the same as if the symbol had been renamed to the third name right away. This holds from every occurrence of the symbol, in every editor and for every server that has the renamed document open.", "quantifier": "all documents, symbols, positions on them, new names accepted by the server, server states and environments", "why_tests_cant": "Sequences of two requests with an edit in between range over all documents and names; a test follows one of them.", "anchors": ["src/main.rs:Backend::rename", "src/rename.rs:get_rename_edits", "src/hir_index.rs:create_index"]}
{"id": "C77", "title": "Renaming different symbols commutes", "statement": "If two different symbols are renamed to names not yet used in their scopes (the function body, or the names of the whole document), the order of the two renames does not matter: both orders are possible and lead to the same text.", "quantifier": "all documents, pairs of different symbols, positions on them, new names accepted by the server, server states and environments", "why_tests_cant": "The edits of the second rename are computed from the text changed by the first, so all pairs of symbols in all documents have to be considered.", "anchors": ["src/main.rs:Backend::rename", "src/rename.rs:get_rename_edits", "src/hir_index.rs:create_index"]}
{"id": "C78", "title": "Shifting twice is shifting by the sum", "statement": "If the numbered symbols from a symbol on are shifted by k, and then, from the shifted symbol on, by l, the text is the same as if they had been shifted by k + l right away.", "quantifier": "all documents, numbered symbols, positions on them, shifts k and l, server states and environments", "why_tests_cant": "A shift renames a whole family of symbols at once and the second starts from the changed text; the claim ranges over all families and amounts.", "anchors": ["src/main.rs:Backend::rename", "src/rename.rs:get_shift_edits", "src/rename.rs:extract_number_from_identifier", "src/rename.rs:get_rename_edits"]}
{"id": "C79", "title": "Global symbols of joined documents are joined, local ones kept apart", "statement": "Put a document B, of which at least one statement (or everything) is understood, below a document A that ends with a line feed and is settled (free of errors, or free of errors from some line on with at least one statement there, see C88). A function, global variable or annotation that occurs in both is one symbol of the whole: from either place its references, declarations and definitions in the file are those of A together with those of B moved down, and an absolute rename (not a +/- shift) edits both, as both documents alone would be edited. A symbol that the other document does not mention (in particular every label and local variable, even if names agree) keeps its answers, moved down if it is in B. Names that denote both a function and a global variable in the whole are excluded.", "quantifier": "all pairs of plain ASCII documents below 2^32 characters, positions on symbols, new names, server states and environments", "why_tests_cant": "It compares three runs of the whole pipeline on arbitrary documents; the classification of @names depends on the other document.", "anchors": ["src/main.rs:Backend::references", "src/main.rs:Backend::goto_definition", "src/main.rs:Backend::goto_declaration", "src/main.rs:Backend::rename", "src/hir_index.rs:create_index"]}
{"id": "C80", "title": "Views of joined documents are joined", "statement": "Put a document B, of which at least one statement (or everything) is understood, below a document A that ends with a line feed and is settled (free of errors, or free of errors from some line on with at least one statement there, see C88). The outline and the folding ranges of the whole are, up to order, those of A together with those of B moved down; the highlighting is that of A followed by that of B moved down. The whole has the graph lenses of A and those of B moved down, except for functions that are defined in both documents, which have none. The graph of a function is that of the first document that defines it. If no instruction of one document refers to a debug annotation of the other, the inlay hints are, up to order, those of A and those of B moved down, and computing them crashes exactly if it crashes for A or for B.", "quantifier": "all pairs of plain ASCII documents below 2^32 characters, function names, server states with the same workspace folders, and environments", "why_tests_cant": "It compares three runs of the whole pipeline on arbitrary pairs of documents.", "anchors": ["src/main.rs:Backend::document_symbol", "src/main.rs:Backend::folding_range", "src/main.rs:Backend::semantic_tokens_full", "src/main.rs:Backend::code_lens", "src/main.rs:Backend::inlay_hint", "src/main.rs:Backend::execute_command"]}
{"id": "C81", "title": "Problems of joined documents follow from the parts", "statement": "Put a document B, of which at least one statement (or everything) is understood, below a document A that ends with a line feed and is settled (free of errors, or free of errors from some line on with at least one statement there, see C88). A use of an undefined symbol in one part is reported in the whole (at its place) exactly if the other part neither declares nor defines a global symbol of that name, and no other uses are. For names that do not denote both a function and a global variable: the repeated definitions of A are reported in the whole; those of B in the same way (moved down) if A does not define the global symbol, and otherwise every definition of it in B is reported as a repetition of the first definition in A; no others are reported. All other problems (syntax errors, branches without targets) are those of A and those of B moved down.", "quantifier": "all pairs of plain ASCII documents below 2^32 characters, names, diagnostics, server states and environments", "why_tests_cant": "It compares three runs of the whole pipeline on arbitrary pairs of documents; how a name is classified depends on the other document.", "anchors": ["src/diagnostics.rs:diagnostics_from_index", "src/diagnostics.rs:diagnostics_from_parser", "src/diagnostics.rs:diagnostics_from_statements", "src/main.rs:Backend::on_change"]}
{"id": "C82", "title": "The layout of the code decides only where the answers point", "statement": "If two texts (printable ASCII with tabs and line ends, no lexical errors, shorter than 2^32) consist of the same tokens in the same order, comments aside, with their line ends at the same places among them, and the values of annotations are spelled alike, then however blanks, comments and the style of the line ends differ, servers with the same workspace folders answer the same request about corresponding places (inside or between the same tokens) alike: same names, kinds, titles, new texts, labels, tooltips, graphs, errors and crashes, and every place in one answer is where the same token starts or ends in the other text; likewise the problems reported, for documents with syntax errors too, unless one of the texts is not empty but consists of blanks only", "quantifier": "all pairs of texts with the same tokens, all requests, all pairs of corresponding places, all iteration orders and file systems, both builds", "why_tests_cant": "Tests compare answers with fixed positions for single texts; that nothing but positions depends on the spacing is a statement about all pairs of texts", "anchors": ["src/main.rs:Backend::get_use_def_ranges", "src/main.rs:Backend::inlay_hint", "src/hir_index.rs:create_index", "src/hir_parser.rs:parse_from_str", "src/diagnostics.rs:diagnostics_from_index"]}
{"id": "C83", "title": "Blank lines and lines of comments decide only where the answers point", "statement": "If two texts (printable ASCII with tabs and line ends, no lexical errors, shorter than 2^32) consist of the same lines of tokens up to blank lines and lines of comments, which may be added and removed wherever there is a line end, except after a line that ends with a comma or a type name (where an instruction may go on in the next line), and the values of annotations are spelled alike, then servers with the same workspace folders answer the same request about corresponding places alike: same names, kinds, titles, new texts, labels, tooltips, graphs, errors and crashes, and every place in one answer is where the same token starts or ends in the other text; likewise the problems reported, for documents with syntax errors too, unless one of the texts is not empty but consists of blanks only", "quantifier": "all pairs of texts with the same lines of tokens, any number of blank lines at any number of places, all requests, all pairs of corresponding places, all iteration orders and file systems, both builds", "why_tests_cant": "Tests try a few blank lines in well-formed texts; that their number is irrelevant everywhere, also for error recovery and for what errors say, is a statement about all runs of the parser on pairs of token sequences of different lengths", "anchors": ["src/hir_parser.rs:parser", "src/hir_parser.rs:parse_from_str", "src/main.rs:Backend::get_use_def_ranges", "src/main.rs:Backend::inlay_hint", "src/hir_index.rs:create_index", "src/diagnostics.rs:diagnostics_from_parser"]}
{"id": "C84", "title": "Inserted blank lines and comments only move down what is below them", "statement": "Insert n lines, each blank or with only a comment, below a line of a document (printable ASCII with tabs and line ends, no lexical errors, together shorter than 2^32, no comment that ends with a carriage return) whose tokens so far do not end with a comma or a type name. A server with the same workspace folders then answers the same request about the same place, which is n lines further down if it is below the inserted lines, in the same way: every place in the answer that was at or below the insertion is n lines further down, and all else is equal (a range that ended with the line end above the insertion still ends there; the highlighting of comments is not compared). The same holds for the problems reported, whether or not the document has syntax errors.", "quantifier": "all documents, all of their complete lines, all blocks of n blank and comment lines, all requests about the document, all iteration orders and file systems, both builds", "why_tests_cant": "Tests insert a few lines into sample files; that no handler, recovery step or message depends on the number or content of such lines, whatever the document, is a statement about pairs of runs of the whole pipeline.", "anchors": ["src/main.rs:Backend::get_use_def_ranges", "src/main.rs:Backend::inlay_hint", "src/main.rs:Backend::on_change", "src/hir_parser.rs:parse_from_str", "src/hir_index.rs:create_index", "src/lsp_utils.rs:offset_to_lsp_pos"]}
{"id": "C85", "title": "Unrecognizable text is reported where it is", "statement": "When a document is opened or changed, the published problems begin with exactly one for each stretch of text that belongs to no token, in the order of the document; if such a stretch reaches up to the end of the document, nothing else is published. As far as the document is in plain ASCII, it marks exactly the first character of the stretch; its message begins with \"Unexpected token in input\". There are two exceptions: a quote that is never closed is reported at the end of the document, with a message that begins with \"Unexpected end of input\", and a carriage return that is not part of a line end is reported at the character behind it (or at the end of the document, with the other message). For a document of nothing but blanks, its end is reported and nothing else.", "quantifier": "all documents below 2^32 characters, all server states and iteration orders", "why_tests_cant": "The error comes out of ten failed alternatives whose errors are merged by how far each got, and the recovery then tries every later position; tests cover single characters in a few contexts.", "anchors": ["src/hir_tokenizer.rs:tokenizer", "src/diagnostics.rs:diagnostics_from_parser", "src/main.rs:Backend::on_change"]}
{"id": "C86", "title": "A rename to a name in use joins exactly the two symbols", "statement": "If a symbol is renamed to a name that symbols of its kind may already have, the document still parses into the same number of statements with one symbol occurrence for each occurrence before, in the same order, of the same kind, role and scope. The renamed symbol and the symbol of the same scope that had the name are one symbol from then on, and find-references at either lists the uses of both; any other two occurrences belong to the same symbol exactly if they did before. This holds in documents below 2^32 characters, plain ASCII up to the last occurrence of the two names, for names that are not both a function and a global variable, have no unrecognizable text directly in front of them, and are renamed to a name that reads back as one name. It does not hold if symbols of another kind have the name.", "quantifier": "all documents, symbols, positions on them, new names, server states and environments", "why_tests_cant": "The server does not refuse names that are in use, so what becomes of the document has to be known for every pair of symbols in every document.", "anchors": ["src/main.rs:Backend::rename", "src/main.rs:Backend::references", "src/rename.rs:get_rename_edits", "src/hir_index.rs:create_index"]}
{"id": "C87", "title": "Editing one part of a document leaves the answers about the rest alone", "statement": "Let a document consist of two parts, and let one part be replaced by another text. (a) If the upper part is replaced (both versions settled, see C88: free of errors, or free of errors from some line on with at least one statement there), every position of the lower part on a symbol that occurs in neither version of the upper part leads, moved by the lines of the part above, to the same references, declarations, definitions in the document and rename range, each moved by the same number of lines, and a rename to the same new name (not a shift) makes the same edits, moved likewise, or is refused with the same message. (b) If the lower part is replaced, every position of the (settled) upper part on a symbol that occurs in neither version of the lower part has exactly the same answers, in some order. (c) The control-flow graph of a function in the part that stays is the same, except that a function defined in the part above takes precedence. So what is found for the local names of a function does not depend on the text outside of the function, under these conditions.", "quantifier": "For all plain texts of fewer than 2^32 characters, all positions, servers and environments; the lower part error-free or with at least one readable statement, the symbol's name not used both for a global variable and a function. The order of the places is not fixed.", "why_tests_cant": "An example shows one edit of one document; that no edit of another part can change an answer needs all pairs of texts.", "anchors": ["src/main.rs:Backend::goto_definition", "src/main.rs:Backend::references", "src/main.rs:Backend::rename", "src/main.rs:Backend::execute_command", "src/hir_index.rs:create_index"]}
{"id": "C88", "title": "Text that cannot be read leaves the text below it alone", "statement": "Let whole lines with any text in them (unrecognizable characters, unfinished statements, ...), in which no quote is left open and of which the last does not end with a comma, stand above an error-free document with at least one statement. All tokens and statements of that document are read as without the text above, at their places further down, and every error that is reported lies inside the text above or ends at the latest with the first token of the document. Such a document (or one without errors), if it ends with a line feed, is called settled; followed by any document of which at least one statement (or everything) is understood, it is read as the two documents one after the other, with the errors of both. Both conditions on the text above are needed.", "quantifier": "all texts, all error-free documents below them, and all documents below these", "why_tests_cant": "While a user types, the document is broken in ways no test enumerates; error recovery must not swallow the statements behind for any such text.", "anchors": ["src/hir_parser.rs:parser", "src/hir_parser.rs:parse_from_str", "src/hir_tokenizer.rs:tokenizer"]}
{"id": "C89", "title": "Renames and shifts keep lenses, hints and highlighting", "statement": "After a rename of a symbol or a shift of numbered names, the document shows the same lenses on the same lines, each for the same function under its name after the edit; the same places are highlighted in the same way, on the same lines and with the same lengths, except that a renamed place is as long as its new name; and the same hints stand on the same lines, in the same order, with the same texts, in which links to symbols show the names after the edit.", "quantifier": "all documents, symbols, positions on them, new names, shifts, server states and environments; hints for all file systems and readers of annotations", "why_tests_cant": "Which lens, hint or highlight a place gets is computed anew from the edited text; that no rename in any document makes one appear, vanish or move to another line is a statement about pairs of runs.", "anchors": ["src/main.rs:Backend::code_lens", "src/main.rs:Backend::inlay_hint", "src/main.rs:Backend::semantic_tokens_full", "src/main.rs:Backend::rename", "src/semantic_token.rs:convert_to_lsp_tokens"]}
{"id": "C90", "title": "The texts parsed without errors are exactly the documents of the grammar, each with one tree", "statement": "Of the texts in which no line begins or ends with a comma and no line begins with `label =`, parse_from_str reports no error exactly for those that consist of tokens, blanks and comments only and whose tokens are a document of the grammar: line ends, then statements, each followed by line ends (the last one possibly by none; dependencies may be followed by a further statement on the same line), a function body being blocks of instructions, each instruction on a line of its own and read as a documented branch, switch or phi form if it has one, and otherwise as an instruction without targets. The statements reported are then the tree the grammar gives the document, and the grammar gives it only one.", "quantifier": "all texts and all syntax trees", "why_tests_cant": "Tests show that some texts are accepted and some are rejected; that a parser with ordered choice, look-ahead and error recovery accepts neither more nor less than its grammar, and never prefers a wrong reading, concerns all texts at once.", "anchors": ["src/hir_parser.rs:parser", "src/hir_parser.rs:parse_from_str", "src/hir_tokenizer.rs:tokenizer"]}
{"id": "C91", "title": "Behind characters outside of ASCII symbols are still found, but places are reported too early", "statement": "In every text whose lines end only as the protocol knows it: an editor position (a line and a number of UTF-16 code units) is read as the character it denotes exactly if the characters before it on its line are of the basic plane, and otherwise as a later one; the place reported to the editor for a character is its place exactly if everything before it is ASCII, and otherwise an earlier one. So with basic characters before the cursor on its line, the symbol under the cursor is found whatever the rest of the text contains: preparing a rename offers something exactly on symbols, and find-references answers exactly one place for each use of the symbol; but a range answered is the range of the symbol exactly if everything before its end is ASCII, and it never begins or ends too late.", "quantifier": "every text below 2^32 characters without vertical tabs, form feeds, U+0085, U+2028 and U+2029; every editor position, server state, iteration order and symbol other than a global variable with the name of a function", "why_tests_cant": "Tests with a few non-ASCII samples show single wrong places; that the conversions are right exactly up to the first such character, err in one direction only, and that lookup is not affected, is a statement about all texts and positions.", "anchors": ["src/lsp_utils.rs:lsp_pos_to_offset", "src/lsp_utils.rs:offset_to_lsp_pos", "src/lsp_utils.rs:range_to_lsp", "src/main.rs:prepare_rename", "src/main.rs:references", "src/hir_index.rs:find_symbol_at_position"]}
{"id": "C92", "title": "In a broken document exactly the readable statements are reported, unless the text ends unreadably", "statement": "The tokens of every text in which no line begins or ends with a comma, begins with `label =`, or mentions a debug reference or a colon before the word `cont`, are in exactly one way a sequence of statements of the grammar (C90) and of unreadable stretches, within which no statement starts. parse_from_str reports all of these statements, in their order, if no unreadable stretch follows the last one, and no statement at all otherwise. Besides the lexical errors it reports at least one error for each unreadable stretch, and none if there is no such stretch.", "quantifier": "all texts with at least one token (and the empty text), with any lexical errors", "why_tests_cant": "Broken documents are what a language server sees while the user types; tests contain a few of them, and the recovery retries every alternative at every later position.", "anchors": ["src/hir_parser.rs:parser", "src/hir_parser.rs:parse_from_str", "src/hir_tokenizer.rs:tokenizer"]}
{"id": "C93", "title": "Exactly which messages end the server", "statement": "A message ends the server if, and only if, it is one of these: a change notification without changes; an opened or changed text with a debug annotation whose value begins or ends (counted in characters, taken as bytes) inside a character; going to the definition of a symbol under the cursor that is a function declared with a location whose file is searched in a non-hierarchical workspace folder before it is found, or (with overflow checks) is found and whose line is 0; a rename of a symbol under the cursor with an empty name, with only a sigil, or with a 64 bit number behind `+` or `-` if the (with overflow checks) negated number does not fit, the character before the number of the symbol is not ASCII, or one of the names to be shifted cannot be split or (with overflow checks) its new number does not fit; a code action at a symbol whose name cannot be split, or (without lazy resolution) one that cannot be shifted; resolving an action for a function that the document does not have, for a local symbol of no function, or for an impossible shift; a hint for an instruction with a backtrace of which a file is searched in a non-hierarchical folder, or whose most relevant symbol has no character boundary after 48 bytes. A session ends with a panic exactly if one of its messages is such in the state it arrives in.", "quantifier": "every message, state reached, environment (build, file system, reader of annotations, iteration order) and session; documents below 4 GiB, hierarchical folders with a path, looked-up paths without tabs and line ends", "why_tests_cant": "Tests can show single crashes or their absence; that a list of crashes is complete and that each of them happens whenever its condition holds is a statement about all messages in all states.", "anchors": ["src/main.rs:on_change", "src/main.rs:rename", "src/main.rs:code_action", "src/main.rs:code_action_resolve", "src/main.rs:inlay_hint", "src/hir_index.rs:create_index", "src/backtrace.rs:resolve_relative_path", "src/rename.rs:extract_number_from_identifier", "src/rename.rs:get_shift_edits"]}
{"id": "C94", "title": "Requests about a symbol are answered exactly as described, in every document", "statement": "In every state the server can be in, for every known or unknown document (with any characters, line ends and syntax errors) and every position, the reply to references, go to declaration, go to definition, prepare rename, rename, code action and code action resolve is the following. The request concerns the symbol with an occurrence over the character reached by going to the beginning of the line (lines end at LF, CR, CRLF, VT, FF, NEL, LS and PS) and as many characters further as the column says; at the definition of a variable with the name of a function it is the function. If there is none, the reply is `null`, no action, or for a rename an error. Otherwise references, declarations and definitions are the places of exactly the occurrences of the symbol in that role, each once and in the order of the text, followed, for go to definition on a function, by exactly the lines named by the debug annotations of its declarations (one for each annotation, in their order) in files that exist in the first workspace folder that has them. A rename to an accepted name replaces exactly the occurrences of the symbol; a rename `+n` or `-n` and the shift action (by 1) replace exactly the occurrences of those symbols of the kind and scope whose number is at least that of the symbol, each by its prefix and the sum, taken to 64 bits and without the sign. Refusals name the reason. Every place is the one behind the longest beginning of the text that has at most as many bytes as the place has characters before it. No such request changes the state. This determines the replies completely, except for the order of the edits of a rename or an action.", "quantifier": "for every reachable server state, file system, build configuration, iteration order of hash maps, position, new name, range and code action; documents below 4 GiB, hierarchical workspace folders with a path, file names without tabs and line ends; when there is no reply at all is C93", "why_tests_cant": "There are infinitely many documents, positions and requests; tests check a few answers in tidy ASCII documents and cannot show that no occurrence is missed, listed twice or mixed up with another symbol in any other document.", "anchors": ["src/main.rs:goto_definition", "src/main.rs:goto_declaration", "src/main.rs:references", "src/main.rs:prepare_rename", "src/main.rs:rename", "src/main.rs:code_action", "src/main.rs:code_action_resolve", "src/main.rs:get_use_def_ranges", "src/rename.rs:extract_number_from_identifier", "src/rename.rs:get_rename_edits", "src/rename.rs:get_shift_edits", "src/lsp_utils.rs:offset_to_lsp_pos", "src/hir_index.rs:find_symbol_at_position"]}
{"id": "C95", "title": "The effect of every message is exactly as described, in every document", "statement": "In every state the server can be in and for every message: either it is one of the messages that end the server (C93), or the new state and the reply are the following. Initializing adds the given workspace folders (or else the root) behind the old ones, uses lazy resolution exactly if the client can fill in edits and preserves data, and says so. Opening or changing a document sets its text (that of the first change) and changes nothing else; published are, with its URI and version, one diagnostic for each syntax error that has a place, each branch instruction without targets, each undefined use and each redefinition (naming the first definition), and no others. Requests about symbols are answered as in C94. Highlighting lists exactly the tokens that have a class, with their places; the outline exactly the variables and then the functions defined; folds are those of the functions (with the number of different labels) and of the blocks (with the number of instructions); hints are exactly the predecessors behind labels that have some, the backtraces behind the debug references that have one, and the names behind the ends of functions; lenses stand over exactly the functions with one definition; the command answers the graph of the first function of the name, or names what is wrong. None of these requests changes the state; unknown documents are answered with `null`. Every place is as in C94, whatever characters and line ends the document has. This determines the new state and the reply completely, except for the order of diagnostics, of the outline, of lenses, of edits, of the edges in a graph (and their repetition) and of the alternatives listed at the end of a syntax error.", "quantifier": "for every reachable server state, message, session, file system, build configuration and iteration order of hash maps; documents below 4 GiB, hierarchical workspace folders with a path, file names without tabs and line ends", "why_tests_cant": "The claim covers all messages, all documents, also broken ones and ones with any characters, and all histories; tests can only sample a few of each and do not see what is missing or shown in addition elsewhere.", "anchors": ["src/main.rs:initialize", "src/main.rs:did_open", "src/main.rs:did_change", "src/main.rs:on_change", "src/main.rs:semantic_tokens_full", "src/main.rs:document_symbol", "src/main.rs:folding_range", "src/main.rs:inlay_hint", "src/main.rs:code_lens", "src/main.rs:execute_command", "src/semantic_token.rs:convert_to_lsp_tokens"]}
{"id": "C96", "title": "Concurrent handlers answer as if messages were handled one by one, and diagnostics never arrive out of order", "statement": "However the handlers of concurrently received messages are interleaved: every reply, and everything a handler sends to the client before it returns (diagnostics, graphs), is the one that handling the messages one by one in the order of their arrival gives; no message is answered twice; once all messages are handled each was answered. Diagnostics and graphs are sent in the order in which their messages arrived, so the last diagnostics the client has for a document are those of its latest text. An answer can be overtaken by that of a later message only while its handler waits for its diagnostics to be written or its graph to be displayed.", "quantifier": "for every sequence of messages, every time of their arrival, every schedule of the handlers (also ones that block or end with a panic), every assignment of documents to shards, every file system and iteration order", "why_tests_cant": "Schedules cannot be enumerated by tests, and a race between an older and a newer text shows up in few of them.", "anchors": ["src/main.rs:on_change", "src/main.rs:did_open", "src/main.rs:did_change", "src/main.rs:execute_command"]}
{"id": "C97", "title": "What a debug build answers, a release build answers as well", "statement": "On every message, in every state, a build with overflow checks (debug) either ends with a panic, or it does exactly what a build without them (release) does: the same reply and the same state; so over whole sessions, up to the message at which the debug build ends, if any. A release build panics only where a debug build panics too. In the usual states the two differ exactly on those messages for which nothing else ends the server and a number leaves its range: going to a function's location in line 0 of a file that exists, or shifting numbers (by a rename or a code action) out of 64 bits. Elsewhere no number ever overflows.", "quantifier": "for all messages and states, all sequences of messages, all file systems, JSON parsers and iteration orders; for the exact criterion: all states reachable with texts below 4 GiB and paths without tabs and line ends", "why_tests_cant": "Tests run in one build profile, and the overflows happen for particular numbers only; that there are no others needs all inputs.", "anchors": ["src/main.rs:rename", "src/main.rs:do_code_action_resolve", "src/main.rs:get_use_def_ranges", "src/rename.rs:get_shift_edits", "src/semantic_token.rs:convert_to_lsp_tokens"]}
{"id": "C98", "title": "What any text is read as", "statement": "The tokens of every text that has some are, in exactly one way, a sequence of statements and of unreadable stretches within which no statement starts; here an instruction is one of the documented forms if the tokens ahead begin with one (also across line ends behind commas), else anything on one line, else `... cont=label, overflow=label` behind a mnemonic that is none of a branch. parse_from_str reports all these statements, in their order, if no unreadable stretch follows the last one, and none otherwise. Its errors are exactly one for each piece of unrecognizable text, in the order of the text, which tells its first character and is located there (for a quote never closed, at the end; for a carriage return without line feed, at what follows); exactly one for each unreadable stretch, which says that a token from the start of the stretch on is unexpected or of the wrong kind and is located at that token, or that the end of the text is unexpected and is located there; one for each such odd mnemonic, at the mnemonic; and nothing else, except that further errors about mnemonics may come from within unreadable stretches. A text that ends in unrecognizable text gives no tokens, no statements and just the errors about its pieces of unrecognizable text; one that consists of blanks only gives no tokens, no statements and one error at its end.", "quantifier": "all texts, without exception", "why_tests_cant": "Tests contain tidy documents and a few broken ones. The parser tries alternatives in an order, some of which cross line ends, and its recovery retries all of them at every later token; what it makes of the text a user is in the middle of typing cannot be enumerated.", "anchors": ["src/hir_parser.rs:parser", "src/hir_parser.rs:parse_from_str", "src/hir_tokenizer.rs:tokenizer"]}
{"id": "C99", "title": "No diagnostics are published exactly for sound documents, and for some cut short", "statement": "After a text was opened or changed, the published list of diagnostics is empty exactly if the text is sound, or cut short. Sound: it consists of tokens that are statements throughout (C98, without any error), every symbol mentioned is declared or defined, no symbol is defined at two places, and every branch, switch and phi instruction names its basic blocks. Cut short: it consists of tokens, some stretches of which cannot be read, all of its errors are at the very end of the text (where the server shows none), and the statements that are reported are sound. A text read without errors has no diagnostics exactly if it is sound. A text that is cut short may be misread silently: of a function without its end, a line of its body may be reported as a global variable.", "quantifier": "all texts below 4 GiB that do not end the server (C01), all states, file systems and iteration orders", "why_tests_cant": "The README promises that any problem is shown; that an empty list means that the whole document is in order is a statement about all documents, and finding the exception needs the exact places of all possible syntax errors.", "anchors": ["src/main.rs:on_change", "src/diagnostics.rs:diagnostics_from_parser", "src/diagnostics.rs:diagnostics_from_index", "src/diagnostics.rs:diagnostics_from_statements", "src/hir_parser.rs:parse_from_str"]}
{"id": "C100", "title": "The edits of a reply can be made together", "statement": "Whatever edits a reply contains (of a rename, a shift rename, an offered or completed action), they are edits of exactly one document, the one the request is about, which is open; each edit is at a range of the current text (both ends exist in it, the start not after the end), and no two of the edits overlap. This holds for every text, whatever characters it has (even where the ranges are not those of the names) and whatever names are used for variables and functions at once; no other message is answered with edits.", "quantifier": "every session (documents below 4 GiB), every message, every document, every position, every new name", "why_tests_cant": "The protocol forbids overlapping edits in one reply, and editors reject or garble them; the edits come out of hash maps with several entries per name, their ranges go through two offset conversions that disagree on non-ASCII text, and a name may be that of a variable and of a function at once. A test sees one reply.", "anchors": ["src/main.rs:rename", "src/main.rs:code_action", "src/main.rs:code_action_resolve", "src/rename.rs:get_rename_edits", "src/rename.rs:get_shift_edits"]}
{"id": "C101", "title": "What names are called does not matter for how a document is read", "statement": "If two texts differ only in their layout, their comments and in the names of variables, functions, annotations and labels (token by token a name of the same sort), then the same statements are read from both: of the same kind, with the same modifiers, types, addresses, blocks, instructions, branch targets and values, and with the same names declared, defined and used as targets at corresponding tokens, of the same kind, role and scope. This includes documents with syntax errors, labels that have the name of a keyword of an instruction, and names that get equal or different; identifiers that are not labels, such as the names of instructions, must be the same.", "quantifier": "all pairs of texts that differ in names and layout only", "why_tests_cant": "Tests use a handful of names; that no name of a label (`br`, `phi`, `cont`, ...) is ever mistaken for a part of an instruction, nor any other name for something with a meaning of its own, is a claim about all names in all places.", "anchors": ["src/hir_parser.rs:parser", "src/hir_parser.rs:parse_from_str"]}
{"id": "C102", "title": "The server only sends the user to the document asked about and to existing files of the workspace", "statement": "Every document or file that a reply names (the document of published diagnostics and their related locations, the targets of go-to-definition, go-to-declaration and find-references, the documents edited by a rename or a code action and the data of a code action, the locations behind parts of hints, the document in a lens) is the document the message is about. The only exception is go-to-definition: it may also name other files, which exist at that time and have the scheme and host of a workspace folder. In a state reached by a session, with workspace folders that have a path, these are the files that the annotations of the declarations of the function under the cursor resolve to; if the file names in annotations have no tabs and line ends, they lie inside a folder that the client announced during initialization. With a tab, a file outside of it can be named.", "quantifier": "all states, messages and replies; for where the other files lie: all states of sessions, workspace folders with a path and annotations without tabs and line ends in file names", "why_tests_cant": "Tests look at the location in one answer; that no annotation in any document makes the server open, edit or point to a file elsewhere is a claim about all documents and all requests.", "anchors": ["src/main.rs:get_use_def_ranges", "src/main.rs:goto_definition", "src/main.rs:references", "src/main.rs:rename", "src/main.rs:do_code_action_resolve", "src/main.rs:inlay_hint", "src/main.rs:code_lens", "src/backtrace.rs:resolve_relative_path", "src/diagnostics.rs:diagnostics_from_index"]}
