# hyper-ir-lsp: formal model and proofs (Lean 4)

The language server of `/repo` (Rust, 3173 lines) is modelled in Lean 4, function by function, and
the properties of `properties.jsonl` are proved about the model, for all texts, states and
histories. No theorem bounds the size of its inputs except where the claim says so
(texts of less than 2^32 characters, because LSP positions are 32-bit numbers).

* `properties.jsonl` the properties; `MANIFEST.json` their status and theorems.
* `lean/Verif/Model` the model; every definition cites file and lines of `/repo`.
* `lean/Verif/Spec` the vocabulary of the claims: definitions that do not use the model's helpers.
* `lean/Verif/Proofs` lemmas.
* `lean/Verif/Props` the property theorems, with a concrete example for each, and the
  refutations (`Cxx_refuted_…`) where the property is false of the code.
* `seeded/LOG.jsonl` wrong variants of the model and the theorems that rejected them.
* `tools/` scripts that write `properties.jsonl`, `MANIFEST.json`, `lean/Verif.lean`
  and the generated parts of this file.

## 1. The model

| module | models |
| --- | --- |
| `Model/Basic.lean` | `char`, `String` (as `List Char`, with UTF-8 lengths), Unicode predicates, integer parsing and printing, 32/64-bit arithmetic with overflow |
| `Model/Chumsky.lean` | the chumsky 0.9.3 combinators in use, with errors, alternative errors, recovery and the "no progress" panic |
| `Model/Tokenizer.lean` | `hir_tokenizer.rs` |
| `Model/Parser.lean` | `hir_parser.rs` |
| `Model/Rope.lean` | ropey's line/char/byte maps; `lsp_utils.rs` |
| `Model/Index.lean` | `hir_index.rs` |
| `Model/SemanticToken.lean` | `semantic_token.rs` |
| `Model/Rename.lean` | `rename.rs` |
| `Model/Cfg.lean` | `control_flow_graph.rs` |
| `Model/Diagnostics.lean` | `diagnostics.rs` |
| `Model/Backtrace.lean` | `backtrace.rs` |
| `Model/Server.lean` | `main.rs`: state, all handlers, histories of messages |
| `Model/Locks.lean` | `main.rs`: the locks held by the handlers and the task that runs them |

Conventions.

* A panic is a value (`Outcome.panic`, `Res.panic`). Loops that are unbounded in Rust have an
  explicit bound in the model, and exceeding it is a panic. So "no panic" also says "terminates".
* `Unicode` is a class: the three predicates of `char` with their values on ASCII. Theorems
  hold for every instance, so for the tables of any Rust version. Examples use `asciiUnicode`.
* `Build` says whether overflow checks are on (debug) or arithmetic wraps (release).
  Theorems hold for both unless one is named.
* `IterOrder` is an arbitrary permutation of what is iterated: Rust's hash maps iterate in an
  unspecified order. A theorem about one request holds for every order.
* The file system and `serde_json::from_str` are parameters (`Env.fs`, `Env.json`).
* Token spans are character indices and the parser's end-of-input span is in bytes, as in the code
  (this mix-up is the source of several refutations).

Simplifications, besides those noted at the definitions.

* Not modelled: log output and `env_logger`, `main()`, `shutdown`, `initialized`, the constant
  capabilities of the `initialize` reply, JSON-RPC decoding, version numbers beyond being passed on,
  names of LSP fields that are always constant.
* Messages are handled in the order of arrival in `Model/Server.lean`. `C51_schedules` (over
  `Model/Locks.lean`) shows that interleaved execution has the same effect, and C96 that the client sees the same replies.
* A document URI is the string returned by `Url::to_string`; percent-encoding is left out.
* The order of expected tokens in an error message (a hash set) is not modelled.
* Time, memory and stack depth are unbounded. The recursion of the parser is not an issue, because
  the grammar has no recursive rule.

## 2. The properties

Every property of `properties.jsonl` could be expressed; none is "not applicable".
"Partial" means that the statement as given is false of the code or is proved under conditions:
the theorem with the suffix `_partial` states the conditions, and a theorem
`Cxx_refuted_…` shows with a concrete input why they are needed where the property is false.

<!-- begin properties -->
* **C01 Analysing a document never crashes or hangs** — partial (`Props/Analysis.lean`). `panic` is an explicit result of combinators, indexing and handlers; every `repeated` has an explicit loop bound whose exhaustion is a panic, so "no panic" includes termination. Proved by a progress measure on the remaining tokens. *Status:* Tokenizer and parser: total for every text. Whole analysis: total for ASCII texts, and for every text the only crash is an annotation string that is cut inside a multi-byte character; C01_refuted shows that crash.
* **C02 Token spans are ordered, disjoint, non-empty and inside the text** — proved (`Props/Lexer.lean`). Through the equivalence of the combinator tokenizer with the relation `Lexes` of `Spec/Lexical.lean` (maximal munch, one case per token kind), then induction. *Status:* All texts, with or without errors.
* **C03 A token's range spells the token** — proved (`Props/Lexer.lean`). As C02; the spelling of a token is defined in `Spec/Lexical.lean` independently of the tokenizer. *Status:* Also shows what holds when there are lexical errors (the range may start with skipped text).
* **C04 Nothing is skipped silently** — proved (`Props/Lexer.lean`). As C02: the text is cut into tokens, blanks and the regions of the errors.
* **C05 Tokenizing is the inverse of printing tokens** — proved (`Props/Lexer.lean`). Forward direction: tokenizing the printed form of any token list with admissible separators.
* **C06 Names extend as far as possible and keywords are exact** — proved (`Props/Lexer.lean`). Facts about `Lexes`: the character after a name is no name character; keywords are whole words.
* **C07 The syntax tree only mentions tokens of the document** — proved (`Props/Parser.lean`). A Hoare logic for the combinators ("consumes a prefix, mentions only consumed tokens, in order"), one lemma per combinator and per grammar rule (`Proofs/Mentions.lean`). *Status:* All texts.
* **C08 Statements and their parts come in source order and do not overlap** — proved (`Props/Parser.lean`). As C07: the mention list of the tree is a sublist of the token list. *Status:* All texts.
* **C09 Well-formed modules parse completely** — proved (`Props/Modules.lean`). Grammar as an inductive specification (`Spec/Grammar.lean`, `Spec/Module.lean`), forward simulation per rule. *Status:* All layouts of well-formed modules (comments, blanks, blank lines). C09_refuted_blank: a text of line ends or blanks only, although an empty module, is reported as an error, so the exception is needed.
* **C10 No reported error means everything was understood** — proved (`Props/Parser.lean`). Soundness per rule: if no error is reported the tokens derive the tree in the grammar of the specification. *Status:* All texts.
* **C11 A broken line does not hide the rest of the document** — partial (`Props/Recovery.lean`). Specification of "broken line" in `Spec/Recovery.lean`; the recovery strategy is analysed by induction on the skipped tokens. *Status:* Proved when a statement follows the last broken line; refuted for a broken line at the end of the document (all statements are lost).
* **C12 Comments do not matter to the parser** — proved (`Props/Modules.lean`). The parser is natural in the spans (`Proofs/Natural.lean`); inserting a comment only moves spans. *Status:* Texts with the same non-comment tokens give the same statements up to positions; plus inserting a comment at the end of a line.
* **C13 Branch targets are extracted from every branching instruction** — proved (`Props/Modules.lean`). Forward and backward per branching instruction.
* **C14 Editor positions and document offsets correspond** — partial (`Props/Position.lean`, `Props/Wide.lean`). Line/column specification `LspLine`-style in `Spec/Position.lean`; ropey's maps on lists of characters. *Status:* Holds for every offset and position up to which the text is ASCII without vertical tab/form feed, whatever follows; refuted behind other text (byte/character mix-up, ropey line breaks). C91 says exactly at which positions the conversion is right.
* **C15 Ranges sent to the editor are well formed** — proved (`Props/Position.lean`). From the monotonicity of the maps of C14. *Status:* For texts shorter than 2^32 characters, ranges in byte offsets
* **C16 Positions beyond the end of a line** — partial (`Props/Position.lean`). Witness; and the case that holds. *Status:* The claim is false (refuted); beyond the end of the last line it holds
* **C17 Every symbol occurrence is indexed exactly once** — partial (`Props/Index.lean`). Ghost state over the indexing folds (`Inv` in `Proofs/Index.lean`) against the occurrences defined from tokens and tree in `Spec/Symbols.lean`. *Status:* Full claim refuted for a name that is both a global variable and a function (C17_refuted_clash); proved for all other names, all texts.
* **C18 Looking up a position finds the symbol under the cursor** — proved (`Props/Index.lean`). From C17 and the disjointness of token spans (C02). *Status:* At the definition of a variable with the name of a function two occurrences cover the same place; the lookup then returns the one of the function (C19_exact).
* **C19 Lookup tables agree** — partial (`Props/Index.lean`). From C17. *Status:* C19_exact: the lookup at a position finds exactly the listed occurrences that cover it, except for definitions of a variable with the name of a function, for all texts; those are never found (C17_refuted_clash).
* **C20 Local symbols never leak between functions** — proved (`Props/Index.lean`). From C17: occurrence lists per function body.
* **C21 Go to definition / declaration / references are exact** — partial (`Props/Answers.lean`, `Props/Navigation.lean`). C17–C19 composed with C14 at the level of the server handlers. *Status:* For symbols up to whose last occurrence the text is ASCII without vertical tab/form feed (whatever follows), except for definitions of a variable with the name of a function (go-to-definition additionally under the conditions of C22). Counterexamples: C21_refuted_clash, C21_refuted_nonascii. What the reply is in every document, whatever its characters and names, is described exactly by C94_answers.
* **C22 External definitions** — partial (`Props/Answers.lean`, `Props/Index.lean`, `Props/Navigation.lean`). Annotation strings and debug references in `Spec/Numbers.lean`/`Spec/Symbols.lean`; fold over the annotation statements. *Status:* C22_external_defs: which annotations count, for every text. C22_definition_partial: the answer is exact for annotations after the declaration with line > 0 and paths without tabs and line ends, in text that is plain ASCII up to the last occurrence of the symbol, except for definitions of a variable with the name of a function. The order of the statements matters (C22_refuted_order) and line 0 underflows (C22_refuted_line_zero). What the reply is in every document, whatever its characters and names, is described exactly by C94_answers.
* **C23 Semantic tokens decode to the tokens of the document** — partial (`Props/Effects.lean`, `Props/SemanticToken.lean`). A decoder as specification (`Spec/Highlight.lean`). *Status:* The number, order, lengths and types are right for every text, the positions as far as the text is ASCII without vertical tab/form feed; in such text the highlighted places are uniquely determined (highlights_unique). Behind other text they are shifted (C23_refuted_nonascii). What is shown in every document, whatever its characters, is described exactly by C95_server.
* **C24 Semantic token encoding never underflows and uses declared types** — proved (`Props/SemanticToken.lean`). Induction over the token list with the monotonicity of positions. *Status:* For every text of less than 2^32 characters (the protocol's numbers are 32 bit).
* **C25 Rename edits exactly the occurrences** — partial (`Props/Answers.lean`, `Props/Rename.lean`). Edits against the occurrences of C17. *Status:* Proved for every position up to which the text is plain ASCII (but not at definitions of a variable with the name of a function): one edit per occurrence (at its range, as far as the text is plain ASCII), none else, no overlap, and (without lexical errors) each replaces exactly the old name. Refuted: definitions of a variable with the name of a function (the function is renamed, too), non-ASCII text, text that is no token directly before the symbol (the edit removes it). What the reply is in every document, whatever its characters and names, is described exactly by C94_answers.
* **C26 Rename rejects invalid names without crashing** — partial (`Props/Answers.lean`, `Props/CrashSites.lean`, `Props/Rename.lean`). The name check evaluated against an independent description of names. *Status:* That nothing crashes and that accepted names are well formed is proved for all requested names (shifts are in C32) except the empty one and a bare sigil, for which the server crashes (refuted). That every invalid name is rejected: text that is plain ASCII up to the position, except for definitions of a variable with the name of a function. C93_exact says exactly when the server crashes, C94_answers what it replies otherwise, in every document.
* **C27 After a rename the document reads as before with the new name** — partial (`Props/RenameText.lean`). Edit application as specification (`Spec/Edits.lean`); the tokenizer with its errors as a relation (`Proofs/LexErrors.lean`), which is carried along the edits (`Proofs/LexRename.lean`). *Status:* Proved for every document that is plain ASCII up to the last occurrence of the symbol, with no unrecognizable text directly in front of the renamed names (unrecognizable text elsewhere is allowed), every symbol except variables with the name of a function, and every name that reads back as one token of the renamed kind: the edits are disjoint and apply, the resulting text lexes to the same tokens except that exactly the name tokens at the occurrences carry the new name, and as much text as before is unrecognizable. Missing: accepted names that do not read back as one token (trailing colon, keywords used as labels), refuted by the first two witnesses; names with unrecognizable text in front of them (C27_refuted_garbage: the text is removed and the name grows together with the word before it).
* **C28 Renaming back restores the document** — partial (`Props/RenameBack.lean`). The parser commutes with a renaming of tokens (`Proofs/Equivariant.lean`), hence the occurrences after the rename are those before. Labels with the name of an instruction word: the reading of C98 (`Layout`) is carried over form by form, since the words that make up an instruction are never read as labels there (`Proofs/RelabelDoc.lean`). *Status:* Proved for documents that are plain (ASCII without vertical tabs and form feeds) up to the last of the renamed names, whatever is below, with no unrecognizable text directly in front of the renamed names (unrecognizable text elsewhere is allowed), unambiguous symbols, new names that can be read back (see C27; labels may have the name of a word that makes up instructions), and old names that would be accepted as new names. C28_refuted_number: a name that starts with a digit can be renamed, but renaming back is refused. C28_refuted_garbage: unrecognizable text directly in front of the name is removed by the rename and does not come back.
* **C29 Numbered identifiers split into prefix and number** — partial (`Props/CrashSites.lean`, `Props/Rename.lean`). Digits and values specified in `Spec/Numbers.lean`. *Status:* Proved for identifiers whose last non-numeric character is ASCII; otherwise the server crashes (refuted). C93_exact says exactly which requests crash for this reason.
* **C30 Shift renames move exactly the later numbers** — partial (`Props/Answers.lean`, `Props/Shift.lean`). Edits against the occurrences; arithmetic on integers with explicit 64-bit bounds. *Status:* Proved when all shifted numbers are non-negative and below 2^63 (documents that are plain ASCII up to the last occurrence of a symbol of the kind and scope, not at definitions of a variable with the name of a function), for renames and for the code action. Refuted: negative results lose their sign. What the reply is in every document, whatever its characters and names, is described exactly by C94_answers.
* **C31 Shift renames never merge two symbols** — partial (`Props/Shift.lean`). From C30 and the injectivity of printing numbers without leading zeros. *Status:* Proved (documents that are plain ASCII up to the last occurrence of a symbol of the kind and scope, not at definitions of a variable with the name of a function, numbers that fit as in C30) for numbers without leading zeros and no unshifted symbol at a number the shift reaches (always so for shifts upwards). Refuted otherwise.
* **C32 Shift arithmetic never overflows** — partial (`Props/Answers.lean`, `Props/CrashSites.lean`, `Props/Shift.lean`). Bounds from C30. *Status:* Proved (documents that are plain ASCII up to the last occurrence of a symbol of the kind and scope, not at definitions of a variable with the name of a function) when no sum reaches 2^63; shifts by 2^63 or more are rejected. Refuted: the largest number plus one crashes (debug) or wraps (release); two signs crash. C93_exact says exactly when the server crashes, C94_answers what it replies otherwise, in every document.
* **C33 Code actions resolve to the same edit eagerly and lazily** — partial (`Props/Answers.lean`, `Props/CrashSites.lean`, `Props/Shift.lean`). Eager and lazy paths are composed of the same handler function; the offered actions are characterised by C18 and C29. *Status:* Eager and lazy clients obtain the same edits: proved for all states. Offered iff on a numbered symbol: proved for text that is plain ASCII up to the position and the end of the symbol there; refuted for a wide character before the number (crash). The title names the symbol under the cursor (at the definition of a variable with the name of a function: the function). When the action is offered, in every document: C94_answers; when the server crashes instead: C93_exact.
* **C34 Resolving a stale code action is safe** — partial (`Props/Answers.lean`, `Props/CrashSites.lean`, `Props/Shift.lean`). Resolution on an arbitrary other document. *Status:* Proved if the new text has at least as many functions, ASCII names and no largest number. Refuted: after removing the function, resolving crashes. C93_exact says exactly when the server crashes, C94_answers what it replies otherwise, in every document.
* **C35 The control flow graph has exactly the branches** — proved (`Props/Flow.lean`). Edges as a relation on the parsed function (`Spec/Flow.lean`).
* **C36 Incoming-edge hints agree with the control flow graph** — proved (`Props/Flow.lean`). As C35, counted per label.
* **C37 Every function with a code lens can be visualized** — proved (`Props/Flow.lean`). Lenses against the definitions; the command executed on the lens's own arguments. *Status:* Also proved: exactly the functions with exactly one definition have a lens, one each.
* **C38 Undefined symbols are reported at every use** — proved (`Props/Diagnostics.lean`). Exact multiset of diagnostics against the occurrences of C17. *Status:* Exactly one report per undefined use, for every document; the range is stated for uses up to which the text is plain ASCII (see C15 for the others).
* **C39 Duplicate definitions are reported** — proved (`Props/Diagnostics.lean`). As C38. *Status:* Exactly one report per redefinition, with a reference to the first definition in source order.
* **C40 Branches without extracted targets are reported** — proved (`Props/Diagnostics.lean`). As C38, against the instructions. *Status:* Exactly one report per branching or phi instruction without targets.
* **C41 Every syntax error is shown** — partial (`Props/Diagnostics.lean`, `Props/Effects.lean`). Errors in order against the published list. *Status:* Every syntax error that is not located at the end of the input is shown, in order, with its custom message or the beginning of the standard one; that the range is the right one is stated for errors up to whose end the text is plain ASCII and that do not start or end between CR and LF. Errors at the end of the input have the range strlen..strlen+1, which has no editor range, and are dropped: refuted with a witness. What is shown in every document, whatever its characters, is described exactly by C95_server.
* **C42 The outline lists exactly the definitions** — proved (`Props/Outline.lean`). Outline against `Spec/Outline.lean`.
* **C43 Folding ranges** — partial (`Props/Effects.lean`, `Props/Outline.lean`). As C42. *Status:* Everything but the number of basic blocks stated for a function: the code counts label names, which differs for unlabelled blocks, equal labels and undefined branch targets (C43_refuted_...). What is shown in every document, whatever its characters, is described exactly by C95_server.
* **C44 End-of-function hints** — proved (`Props/Flow.lean`). As C42.
* **C45 Backtrace parsing is total and keeps every frame** — proved (`Props/Backtrace.lean`). Pure function on JSON trees; `serde_json::from_str` is a parameter. *Status:* For every JSON value; FrameOf determines the frame (frameOf_unique). Workspace folders whose URI has no path crash (C45_refuted_opaque), they are excluded by the quantifier.
* **C46 The most relevant frame is chosen by preference** — proved (`Props/Backtrace.lean`). Preference order as a relation; the chosen frame is minimal in it.
* **C47 Symbol names cannot break out of the Markdown code span** — partial (`Props/Backtrace.lean`). Characters of the result. *Status:* Length and absence of special characters proved; line ends are kept by the code, so an empty line ends the code span (C47_refuted_newline).
* **C48 Shortened paths are the last path component** — proved (`Props/Backtrace.lean`). Specification by decomposition of the path.
* **C49 Shortened symbol names never crash and are short** — partial (`Props/Backtrace.lean`, `Props/CrashSites.lean`). Characterisation of the byte slices by character boundaries. *Status:* Full statement for ASCII names; for all names whenever there is no crash. Non-ASCII names can crash (C49_refuted_nonascii). C93_exact says exactly which hints crash for this reason.
* **C50 Resolved paths stay inside the workspace** — partial (`Props/Backtrace.lean`). URL paths as segment lists. *Status:* For paths without tabs and line ends. With them the URL crate can be made to leave the folder (C50_refuted_tab).
* **C51 Requests answer for the latest text** — proved (`Props/History.lean`, `Props/Locks.lean`). State machine over arbitrary histories (`Spec/History.lean`), refined to a map from URIs to the latest text. *Status:* Up to the iteration order of hash maps, which is a parameter of every message. The replies of a server with any history equal those of a server that only opened the latest text; C51_schedules shows that interleaved handlers have the effect of handling the messages in order of arrival.
* **C52 Requests never modify documents** — proved (`Props/History.lean`). State equality for every request.
* **C53 Requests for unknown documents are answered gracefully** — proved (`Props/History.lean`). Handlers on documents not in the map.
* **C54 A change notification applies all of its changes** — partial (`Props/Effects.lean`, `Props/History.lean`). The handler against "apply all changes". *Status:* Proved for one change. False otherwise: an empty list panics, and of several changes only the first is used. C95_server describes the effect of every list of changes.
* **C55 Diagnostics are published for the stored text** — proved (`Props/History.lean`). Publications of a history against the stored texts. *Status:* Diagnostics are compared up to order (hash maps).
* **C56 The server keeps responding while a graph is displayed** — partial (`Props/Locks.lean`). Small-step semantics of the handlers over shard locks and mutexes (`Model/Locks.lean`), all schedules. *Status:* The server can only block on a change while a graph is displayed for a document in the same shard of the document map; that case does block forever (refutation). Based on a model of DashMap's shard locks and tower-lsp's single task.
* **C57 Workspace folders and capabilities are taken from initialization** — proved (`Props/History.lean`). The `initialize` handler and its effect on later code actions.
* **C58 Preparing a rename offers exactly the symbol under the cursor** — proved (`Props/Hints.lean`). The handler against the occurrences of C17. *Status:* Proved for every position up to which the text is plain ASCII; that the range is the right one, if the text is plain ASCII up to the end of the symbol.
* **C59 Backtrace hints show exactly the backtraces of the instructions** — proved (`Props/Hints.lean`). The hint handler against the instructions, the annotation table and the relevant frame of C46. *Status:* C59_refuted_crash shows that the remaining crash happens (see C49).
* **C60 A rename to a new name keeps what every name refers to** — partial (`Props/RenameBack.lean`, `Props/RenameText.lean`). As C28. *Status:* Proved for documents that are plain (ASCII without vertical tabs and form feeds) up to the last of the renamed names, whatever is below, with no unrecognizable text directly in front of the renamed names (unrecognizable text elsewhere is allowed), unambiguous symbols, new names that can be read back (see C27). Labels may have the name of a word that makes up instructions. C60_fresh_needed: a name used in the same scope already merges two symbols; C86 says what happens then.
* **C61 All occurrences of a symbol answer alike** — proved (`Props/Consistency.lean`). The lookups of C18 at the two positions and the specification of `get_use_def_ranges` behind C21. *Status:* Places behind non-ASCII text are excluded because positions are translated wrongly there (C14).
* **C62 Undefined symbols are exactly those navigation finds nothing for** — proved (`Props/Consistency.lean`). The undefined uses of C38 against the locations of C21 and C22. *Status:* Anything may stand below the use. Uses below non-ASCII text are excluded because positions are translated wrongly there (C14).
* **C63 Highlighted places lie on one line and do not overlap** — partial (`Props/OneLine.lean`). The decoded highlights of C23, and token spellings (C03) without line ends. *Status:* Proved for plain ASCII documents, with Unix or Windows line ends, without line ends inside string literals, without comments in front of Windows line ends and without carriage returns alone, with or without errors. Refuted otherwise: C63_refuted_string (a string over two lines), C63_refuted_crlf (a comment before a Windows line end includes the carriage return), C63_refuted_cr (a carriage return alone), C63_refuted_nonascii (names behind other characters).
* **C64 Answers do not depend on the order of hash maps** — proved (`Props/Consistency.lean`). Handler by handler: permuting the maps permutes the lists made from them; induction over the history. *Status:* The model lists the expected tokens of a syntax error in a fixed order; in the code they come out of a hash set, so the wording of these messages may vary in addition.
* **C65 The server ends only for known causes** — proved (`Props/Crashes.lean`). Handler by handler: where a panic can come from, in terms of the text (C01, C20, C22, C24, C45, C59); every known document is the analysis of a text that was sent. *Status:* Fatal (Spec/Crashes) lists the causes; each one stands for a crash shown by a refutation of C01, C22, C26, C29, C32, C34, C45, C54 or C59, and C65_refuted_* show that a history can end the server. C65_survives_partial is the consequence for histories in which no cause can arise (what is missing there are the causes themselves).
* **C66 A shift keeps what every name refers to** — partial (`Props/Shift.lean`, `Props/ShiftText.lean`). The machinery of C60 for several symbols renamed at once (`Plan`, `Separate`), with the names of C30. *Status:* Proved for shifts that satisfy ShiftSafe: the numbers fit and have no leading zeros, no symbol is numbered in the gap, shifted names are not both a function and a global variable, no new name belongs to a symbol of another kind, no new label is a type, no unrecognizable text directly in front of a shifted name; and for documents that are plain (ASCII without vertical tabs and form feeds) up to the last name in the scope, whatever is below. Refuted otherwise: a function shifted to the name of a global variable (C66_refuted_kind), a label shifted to a type (C66_refuted_keyword), leading zeros and gaps (C31).
* **C67 A shift can be undone by the opposite shift** — partial (`Props/ShiftText.lean`). The shift back renames exactly the shifted occurrences, to their old names; the changes are the inverse of the first ones. *Status:* Proved under the conditions of C66. Refuted for symbols in the gap and leading zeros.
* **C68 Renames and shifts change no diagnostics** — partial (`Props/Kept.lean`). The parser commutes with a renaming of tokens including its errors (`Renaming.Rel` relates whole results), so the reports of each kind correspond one to one. If all statements can be read, the errors are those about unrecognizable text and mnemonics only (C98), which do not depend on labels at all. *Status:* For names not yet used in the scope and safe shifts (conditions of C60 and C66), in documents that are plain (ASCII without vertical tabs and form feeds) up to the last of the names concerned, whatever is below, with no unrecognizable text directly in front of the renamed names (unrecognizable text elsewhere is allowed); C68_rename_partial and C68_shift_partial prove it for every such document, history and iteration order. Missing: other characters above a renamed name (the edits themselves are then misplaced, C14), and labels with the name of a word that makes up instructions in documents with statements that cannot be read (no counterexample is known; without such statements the labels may have these names, too). Refuted for unrecognizable text directly in front of the name (C68_refuted_garbage: its report disappears), shifts onto numbers in use, for labels that become types, and for new names that are in use, where the server makes the edits and the diagnostics change.
* **C69 Renames and shifts keep the structure shown** — partial (`Props/Structure.lean`). `Carried` says how text, tokens and tree move; names contain no line ends, so every position stays on its line (`Carried.lines`). *Status:* For names not yet used in the scope and safe shifts (conditions of C60 and C66), in documents that are plain (ASCII without vertical tabs and form feeds) up to the last of the names concerned, whatever is below, with no unrecognizable text directly in front of the renamed names (unrecognizable text elsewhere is allowed); proved there for every document, server state and iteration order. Missing: other characters above a renamed name (the edits themselves are then misplaced, C14). Refuted for new names that are in use and for labels that become types.
* **C70 Documents compose** — proved (`Props/Compose.lean`). `many_docItem_append` (what the parser does with a clean document does not depend on what follows its last line feed), naturality of tokenizer and parser in the positions (`Move`), `longest_continue` for the tokens. *Status:* The hypotheses are part of the statement; two witnesses show that the line feed and the readability of the second document are needed.
* **C71 Comments above a document move its answers down and change nothing else** — proved (`Props/Below.lean`). Naturality of tokenizer and parser in the positions (C70), then of the index (`createIndex_moved`), of the position conversion below whole ASCII lines (`Under`), and of each handler (`MovedDoc`). *Status:* All requests and the reported problems, for every block of ASCII comment lines above every document of which at least one statement is understood. Both conditions are part of the statement; C71_refuted_non_ascii and C71_needs_readable show that neither can be dropped.
* **C72 Comments at line ends, trailing blanks and the line end style change no answer** — proved (`Props/Remarks.lean`). Both texts are compared with the bare code (`Placed`): its tokens and errors are moved by an increasing map that is linear within each line (`placed_lexes`, `placed_pos`), the parser and the index follow (`Move`, `createIndex_placed`), and each handler sees only positions (`Twin`). *Status:* For every pair of documents; needed restrictions shown by C72_refuted_non_ascii, C72_refuted_beyond, C72_refuted_column, C72_refuted_blank.
* **C73 Rename edits exactly what navigation shows** — proved (`Props/Agreement.lean`). All handlers read the same entry (C19); its lists are compared without looking at positions. *Status:* For every document below 2^32 characters; go-to-definition may crash (C22), which is stated.
* **C74 The views of a function agree** — proved (`Props/Agreement.lean`). Every function body has convertible ranges (C02, C15); the handlers are maps over the same list, and the table of functions lists the same names (`defs_bodies`). *Status:* For every document below 2^32 characters.
* **C75 Duplicate definitions are reported where navigation finds several definitions** — proved (`Props/Agreement.lean`). Both read the definitions of one entry; the order of the list is that of the text (`listed_defs_order`). *Status:* The converse is for text that is plain up to the duplicates and for names that are not both function and global variable, as stated; C75_refuted_clash shows why.
* **C76 Renaming twice is renaming once** — partial (`Props/RenameTwice.lean`). The text after a rename is parsed as the renamed document (`Stage`, from C60); edits of edits are edits of the first text (`replaced_then`). *Status:* Proved for text below 2^32 characters that is plain (ASCII without vertical tabs and form feeds) up to the last of the renamed names, whatever is below, with no unrecognizable text directly in front of the renamed names (unrecognizable text elsewhere is allowed), names that read back as one name (labels are no keyword or type), and names of either a function or a global variable. Missing: the other documents and accepted names; C76_refuted_colon shows that the claim is false for an accepted name ending in a colon, C76_fresh_needed that the first name must be new in its scope.
* **C77 Renaming different symbols commutes** — partial (`Props/RenameTwice.lean`). As C76; both orders give the text in which each symbol has its new name (`Changed`, `changed_unique`). *Status:* Proved for text below 2^32 characters that is plain (ASCII without vertical tabs and form feeds) up to the last of the renamed names, whatever is below, with no unrecognizable text directly in front of the renamed names (unrecognizable text elsewhere is allowed), names that read back as one name (labels are no keyword or type), and names of either a function or a global variable. Missing: the other documents and accepted names; C77_refuted_keyword shows that the claim is false for a label renamed to a keyword.
* **C78 Shifting twice is shifting by the sum** — partial (`Props/RenameTwice.lean`). As C76 with the plan of a shift; the shifted symbols of the new text are the shifted ones of the old. *Status:* Proved for text below 2^32 characters that is plain (ASCII without vertical tabs and form feeds) up to the last name in the scope, whatever is below, and a symbol that is not the name of both a function and a global variable, if the first shift takes no name already in use and turns no label into a type and no shifted name has unrecognizable text directly in front of it (ShiftSafe), the sum fits into 64 bits, no shifted number becomes negative or overflows (ShiftFits), and the sum turns no label into a type. C78_refuted_gap shows that the claim is false if the first shift takes a name in use. Missing: other characters above a shifted name (the edits themselves are then misplaced, C14).
* **C79 Global symbols of joined documents are joined, local ones kept apart** — proved (`Props/Join.lean`). By C88 (C70 for error-free parts) the whole has the tokens and statements of both; `Joined.occurs` gives its occurrences, `JoinedIx.listed_*` the lists of the index, and the line lemmas of C71 the places. *Status:* Found and renamed places of a symbol in the whole are those in the parts, for symbols that occur in both documents and for symbols of one only; C79_refuted_clash shows why names that are both function and variable are excluded.
* **C80 Views of joined documents are joined** — proved (`Props/JoinViews.lean`). By `Joined` (C79) the bodies of the whole are those of A and those of B moved, up to what the views read (`bodyKey`); each view is then split with the line lemmas of C71. `NoRefs` separates the annotations. *Status:* Restrictions (plain ASCII, no cross references to annotations for hints) are part of the statement; C80_refuted_annotation shows that the last one is needed.
* **C81 Problems of joined documents follow from the parts** — proved (`Props/JoinProblems.lean`). `JoinedIx.undefinedUse` and the `firstDef_*` lemmas carry undefined uses and first definitions of the parts (C38, C39) to the whole; `occurs_spelled` (sigils) turns names into kinds of symbols. *Status:* The exception for names that denote both a function and a global variable is part of the statement; C81_refuted_clash shows that it is needed.
* **C82 The layout of the code decides only where the answers point** — proved (`Props/Layout.lean`). Tokens are counted instead of characters (`countedFrom`, `layMove`): the parser and the index are natural in positions (`parseTokens_move`, `createIndex_laid`), so both documents are images of one analysis of counted tokens; `Laid.*` carries each answer over. *Status:* C82_requests: every request, at corresponding places (SameSpot), is answered alike (AlikeReply: same content, places at the starts and ends of the same tokens). C82_diagnostics: the problems are matched one to one. A line end that follows a comment may start between a CR and its LF, where editors have no position; nothing is promised about the start of a syntax error reported exactly there. C82_refuted_line_ends: line ends are part of the code.
* **C83 Blank lines and lines of comments decide only where the answers point** — proved (`Props/BlankLines.lean`). A relation between the runs of each parser on the tokens with and without the dropped line ends (`Good`, `ErrAt`): same outputs, same spans, errors at corresponding places, so that "furthest error" comparisons agree; line ends are dropped only where no parser started in between counts them (`Vis`, `Tight`, `Opn`). Then as C82 (`Reading`). *Status:* C83_requests: every request, at corresponding places, is answered alike when the two texts have the same tokens after dropping comments and all line ends that follow a line end (lineTokens; line ends after a comma or a type name are kept). C83_diagnostics: the problems are matched one to one, syntax errors included. C83_refuted_open: after a comma the number of line ends matters, so the exception is needed.
* **C84 Inserted blank lines and comments only move down what is below them** — proved (`Props/Insert.lean`). The text is cut behind the line end (`lexes_split`), the inserted lines have no tokens that count (`Inserted.after`), so C83 applies; corresponding tokens then stand at positions moved down (`offsetToLspPos_insert`), and the relations of C83 are weakened to that (`AlikeReply.mono`). *Status:* From C83: the lexer of the whole is cut at the line end, the inserted lines vanish from the lines of tokens, and the corresponding places of C83 become lines moved down. C83_refuted_open shows why the line must be complete.
* **C85 Unrecognizable text is reported where it is** — proved (`Props/Unread.lean`). Each alternative of the tokenizer is evaluated on a character it cannot start with (`tokenChoice_alien`, `tokenChoice_cr`, `tokenChoice_quote`), so the merged error is known exactly (`lexErr`), also when recovery skips further (`skipThenRetry_errs`); `tokenize_exact` gives the list of errors, which is published first. At unrecognizable text at the end the tokenizer fails, and the error it fails with is merged from what the repetition and the end-of-input parser expected; it has the place and the character of `lexErr` because no alternative gets further (`Near`, `tokenize_lost`). *Status:* What is said about places is restricted to places up to which the text is plain ASCII. C85_unread: documents with tokens; C85_lost: unrecognizable text at the end; C85_blank: nothing but blanks; C85_every: there are no other documents. C85_applies: the hypotheses of C85_unread hold whenever the tokenizer returns tokens. The message is stated up to the list of expected tokens, whose order comes from a hash set.
* **C86 A rename to a name in use joins exactly the two symbols** — proved (`Props/Taken.lean`). As C60; a function stays a function because no symbol of another kind has the name (`isFunction_taken`), and the two symbols become one by comparing kind, scope and name (`rename_joins`). *Status:* C86_refuted_kind: the condition on the kinds is needed; a variable renamed to the name of a function has its uses taken for uses of the function. Examples: a parameter renamed to another parameter of the same function (C86_taken), and to a name that only another function uses (C60_references_partial).
* **C87 Editing one part of a document leaves the answers about the rest alone** — proved (`Props/Edit.lean`). The answers in both versions are those of the part alone, moved (`second_found`, `first_found`); the part alone is read in the same way each time, so the answers agree. *Status:* Follows from C79 and C80, applied to both versions.
* **C88 Text that cannot be read leaves the text below it alone** — proved (`Props/Broken.lean`). `Shut` (Proofs/Shut): every part of the grammar, run on whole lines in front of a token that starts a statement, stops at that token, and its result does not depend on what is behind it; `doc_shut` carries this through error recovery. `squash` (naturality in the positions) shows where the errors lie. *Status:* conditions (no open quote, no comma at the end of the broken text) are part of the statement and shown to be needed
* **C89 Renames and shifts keep lenses, hints and highlighting** — partial (`Props/Views.lean`). The tokens and statements of both documents correspond (`Carried`, from C60/C66) and names change consistently (`Keeps`); lenses, highlights and hints are mapped through that correspondence (`lenses_kept`, `highlights_kept`, `hints_kept`), and positions keep their lines because names contain no line ends. *Status:* Proved for every document below 2^32 characters: for renames to a name that is fresh in its scope and reads back as one token, and for shifts that reach no name in use, of symbols that are not the name of both a function and a global variable, with no unrecognizable text directly in front of the renamed names and plain ASCII up to the last of them. The hints are compared for equal files and workspace folders and for annotations no renamed occurrence stands in; the reader of annotations is arbitrary in the model, so their text has to be the same. Refuted without freshness: renaming @f to the name of another function makes the lenses of both disappear.
* **C90 The texts parsed without errors are exactly the documents of the grammar, each with one tree** — proved (`Props/Exact.lean`). Proofs/Exact: on tidy lines each documented form stays on its line (`known_oneLine`); if any form fits, the parser finds it (`known_complete`), so its choice and that of the grammar agree (`kind_sound`, `kind_complete`), and this is carried through instructions, blocks, bodies, statements and documents (`many_docItem_exact`). That there is one tree follows because the parser is a function. *Status:* For texts with tidy lines, as the statement says; C90_refuted_comma shows that the parser reads past the end of a line that ends with a comma.
* **C91 Behind characters outside of ASCII symbols are still found, but places are reported too early** — proved (`Props/Wide.lean`). Proofs/Wide: lines are counted in characters (`charToLine`), where the server and the protocol agree (`lspLine_usual`); the number of characters in the first n bytes is n exactly if they are ASCII (`byteToChar_eq`), and the UTF-16 length of a text is its length exactly if it is basic (`utf16Len_eq`). *Status:* An exact account of C14 and C21 outside of ASCII; the range of validity of the other properties (plain text up to a place) is therefore the largest possible one for the places reported.
* **C92 In a broken document exactly the readable statements are reported, unless the text ends unreadably** — proved (`Props/Stretches.lean`). Proofs/Stretches: with such lines no statement is read with an error (`kind_clean`, `pStatement_whole`), so a statement is read exactly where the grammar has one (`readsAt_iff`); each stretch makes the recovery skip its tokens and leaves an error (`many_docItem_stretches`); the split exists (`stretches_total`) and is unique (`stretches_unique`). *Status:* For all texts with the stated shape of lines; lexical errors are allowed. The other lines are excluded because the parser reads past their end (C90_refuted_comma) or reads them with an error.
* **C93 Exactly which messages end the server** — proved (`Props/CrashSites.lean`). Proofs/CrashSites: every outcome that can be a panic gets an "iff" in terms of the specification (`symbolAt_under`, `resolve_stuck`, `extract_panic_iff`, `getShiftEdits_panic_iff`, `externalLocations_panic_iff`, `backtraceHint_panic`, `renameEdits_panic_iff`), and the messages are compared one by one. *Status:* The restrictions in the quantifier (`Regular`) are hypotheses; C65 gives causes without them.
* **C94 Requests about a symbol are answered exactly as described, in every document** — proved (`Props/Answers.lean`, `Props/Determined.lean`). Proofs/Answers: positions in every text are described by `ShownPlace` (`offsetToLspPos_shown`), printed numbers by `NumberText` (`numberText_iff`), found files by `FoundAt` (`resolve_found`); the requests are then compared with `Correct` one by one, using that the index lists exactly the occurrences (C18–C20). That the description determines the replies is in Props/Determined (`shownRange_unique`, `inRole_unique`, `renumbered_perm`, `refused_unique`, …). *Status:* Every reply (also refusals, and replies in documents with characters outside of ASCII, unusual line ends and syntax errors) is characterised; when there is no reply is C93. The places are given by ShownPlace, which is what the code computes for every text (offsetToLspPos_shown); that these places are the right ones only for plain text is recorded in C16 and C91. C94_determined: two replies that fit the description are the same, up to the order of edits.
* **C95 The effect of every message is exactly as described, in every document** — proved (`Props/Determined.lean`, `Props/Effects.lean`). Proofs/Effects: each view is first described by `Picks`/`Each` over what the parser gives (`tokens_shown`, `outline_shown`, `folds_shown`, `incoming_shown`, `traces_shown`, `ends_shown`, `lenses_shown`, `command_shown`, `diagnosed`), with the places of C94; the messages are then compared with `Effect` one by one, and C93 and C94 supply the crashes and the requests about symbols. That the description determines the effects is in Props/Determined. *Status:* C95_server: the effect of every message in every reachable state is as described by Effect (Spec/Views). C95_sessions: the same for each message of a session. C95_total: every message either crashes as described by C93 or has such an effect. C95_determined, C95_views_determined, C95_only: two effects that fit the description are the same (SameServer, SameView in Spec/Determined), so what the server does is the only thing that fits it.
* **C96 Concurrent handlers answer as if messages were handled one by one, and diagnostics never arrive out of order** — proved (`Props/Schedule.lean`). Props/Schedule: an invariant of all schedules (`OutInv`, beside `RunInv` of C51) that relates what was sent, what was returned and the handlers in progress to the replies of `run`; a handler is only left at its one `.await`, after which it has no effects (`Passive`). *Status:* In the model of Model/Locks.lean (one task, suspended only at an await that is not ready; the channel to the client keeps the order of sending). C96_replies: what is sent or returned is the reply of run. C96_once, C96_complete: each message is answered once. C96_sent: diagnostics and graphs in order of arrival. C96_order: which answers can be overtaken. C96_last_diagnostics: for messages with one change each (C54).
* **C97 What a debug build answers, a release build answers as well** — proved (`Props/Builds.lean`). Props/Builds: the outcomes of the functions that compute with machine numbers are compared one by one (`i64Op_build`, `u32Sub_build`, then everything that calls them); where the builds differ follows from the exact causes of a panic (C93). *Status:* All messages, states and sessions. The exact criterion for differences is for regular states (texts below 4 GiB, paths without tabs and line ends), where C93 gives the causes of a panic.
* **C98 What any text is read as** — proved (`Props/Reading.lean`). Proofs/Reading: every reading of the grammar with look-ahead (`Layout`) is followed by the parser and vice versa, form by form (`lineAt_sound`, `lineAt_complete`, …, `foundAt_sound`, `foundAt_complete`); the readings exist (`layout_total`) and are unique (`layout_unique`). Proofs/Blame: no parser reports an error anywhere but at a token ahead of it or at the end of the input (`Fair`), and the only secondary errors are those about mnemonics. *Status:* No restriction on the text: what C90 and C92 say about tidy texts is here said about all, with the order in which the forms of an instruction are tried. C98_accepted is the general form of C90, C98_reading and C98_reported that of C92. C98_one_way: every sequence of tokens is read in exactly one way. C98_determined, C98_places, C98_places_lost and C98_told: the description leaves no choice about tokens, statements, the places of unrecognizable text and the errors about it, and the number of syntax errors; only what is listed as expected, and the exact place of a syntax error within an unreadable stretch, stay open.
* **C99 No diagnostics are published exactly for sound documents, and for some cut short** — proved (`Props/Clear.lean`). Props/Clear: the description of the published diagnostics (C95, `diagnosed`) is taken apart: no lexical error and no error about a mnemonic is at the end of the text, and only errors at the end have no place (`error_unshown`); what was read comes from C98. Two first definitions of a symbol are the same (`firstDef_unique`). *Status:* C99_clear is an equivalence for every text that does not end the server; C99_cut is the witness for the second case, a document cut short of which a line is silently taken for a global variable.
* **C100 The edits of a reply can be made together** — proved (`Props/Together.lean`). Props/Together: the replies to the three requests with edits (C94, `answers_edits`, which needs the sizes only) list different occurrences of symbols of one kind; these are at different tokens (`occurs_kind`, also for variables with the name of a function), and later characters are shown at later places in every text (`shownPlace_le`). *Status:* Proved for every message and every document below 4 GiB, in every state reached by a session.
* **C101 What names are called does not matter for how a document is read** — proved (`Props/Names.lean`). Props/Names: the tokens are counted instead of measured (as for C82); names other than labels are exchanged by the commutation of the parser with renamings (Proofs/Equivariant), labels by carrying over the reading of C98 (`parseTokens_renamed`, Proofs/RelabelDoc), and places by the naturality of the parser (Proofs/Natural). *Status:* No restriction on the texts: they may have syntax errors and unrecognizable text (what was recognized is compared). C101_mnemonics_matter: identifiers other than labels are not free.
* **C102 The server only sends the user to the document asked about and to existing files of the workspace** — proved (`Props/Inside.lean`). Props/Inside: every kind of message is followed through the model (`step_names`): all documents written into a reply are the one of the request, except for the locations of external definitions, which come from `resolveRelativePath`; for these see C50, and C22 for the annotations they come from. *Status:* `C102_named` holds in every state. `C102_sessions` is about sessions from the start of the server; `C102_inside` about any state whose documents are analyses of texts. The links in tooltips of backtraces are text and described in C59. A tab in a file name leads out of the workspace: `C102_refuted_tab`.
<!-- end properties -->

The restriction of C68 to labels that are not instruction words (`PlainLabel`), which concerns
documents with statements that cannot be read, is one of the
proof, not known to be needed: what is read does not depend on the names of labels
(`Proofs/RelabelDoc.lean`, used for C28, C60, C69, C76, C77, C86 and C89), but the places of
syntax errors are only compared for words that no parser looks for. The other conditions are
backed by refutations.

## 3. Trusted base

1. Lean 4.33.0: kernel, and the elaborator as far as it decides which statement is checked.
   No `native_decide`, `bv_decide`, `sorry`, own axioms, `implemented_by`, `unsafe`.
   Concrete examples are checked with `decide` / `decide +kernel`, i.e. by the kernel.
   Mathlib is not used.
2. Axioms, as printed by `#print axioms`:

<!-- begin axioms -->
* none: `C16_refuted`, `C49_refuted_nonascii`, `C49_refuted_48`
* propext: `C01_refuted`, `C09_refuted_blank`, `C11_refuted_at_end`, `C14_refuted_nonascii`, `C14_refuted_formfeed`, `C17_refuted_clash`, `C21_refuted_clash`, `C21_refuted_nonascii`, `C22_refuted_order`, `C22_refuted_line_zero`, `C22_refuted_line_zero_release`, `C23_refuted_nonascii`, `C25_refuted_clash`, `C25_refuted_nonascii`, `C25_refuted_garbage`, `C26_refuted_empty`, `C26_refuted_sigil`, `C27_refuted_keyword`, `C27_refuted_garbage`, `C28_refuted_number`, `C28_refuted_garbage`, `C29_refuted_wide`, `C30_refuted_negative`, `C31_refuted_gap`, `C31_refuted_leading_zeros`, `C32_refuted_sum`, `C32_refuted_sum_release`, `C32_refuted_sign`, `C33_refuted_nonascii`, `C34_refuted_stale`, `C41_refuted_end_of_input`, `C43_refuted_unlabelled`, `C43_refuted_undefined`, `C45_refuted_opaque`, `C47_refuted_newline`, `C50_refuted_tab`, `C51_schedules`, `C52_state`, `C52_requests`, `C52_repeat`, `C52_requests_removable`, `C54_single_change_partial`, `C54_accepted_partial`, `C54_refuted_empty`, `C54_refuted_several`, `C54_refuted_two_changes`, `C55_only_changes`, `C56_final`, `C56_idle_partial`, `C56_crash_partial`, `C56_blocked_forever`, `C56_refuted_change_during_graph`, `C57_lazy_effect`, `C59_refuted_crash`, `C60_fresh_needed`, `C63_refuted_string`, `C63_refuted_crlf`, `C63_refuted_cr`, `C63_refuted_nonascii`, `C65_refuted_rename`, `C65_refuted_opaque`, `C65_refuted_text`, `C66_refuted_kind`, `C66_refuted_keyword`, `C67_refuted_gap`, `C67_refuted_leading_zeros`, `C68_refuted_gap`, `C68_refuted_keyword`, `C68_refuted_taken`, `C68_refuted_garbage`, `C69_refuted_taken`, `C69_refuted_keyword`, `C70_needs_line_feed`, `C70_needs_readable`, `C71_refuted_non_ascii`, `C71_needs_readable`, `C72_refuted_non_ascii`, `C72_refuted_beyond`, `C72_refuted_column`, `C72_refuted_blank`, `C75_refuted_clash`, `C76_refuted_colon`, `C76_fresh_needed`, `C77_refuted_keyword`, `C78_refuted_gap`, `C79_refuted_clash`, `C80_refuted_annotation`, `C81_refuted_clash`, `C82_refuted_line_ends`, `C83_refuted_open`, `C86_refuted_kind`, `C88_needs_no_comma`, `C88_needs_closed_quotes`, `Instances.C89_refuted_taken`, `C102_refuted_tab`
* propext, Quot.sound: `C14_roundtrip_char`, `C15_ranges`, `C15_distinct`, `C29_numbered_partial`, `C32_rejected`, `C33_eager_lazy`, `C34_unknown`, `C45_backtrace_total`, `frameOf_unique`, `C47_markdown_partial`, `C48_last_component`, `C49_short_name_partial`, `C49_short_name_any`, `C50_inside_workspace_partial`, `C51_latest_text`, `C51_not_opened`, `C53_unknown_document`, `C55_published`, `C56_blocked_partial`, `C56_never_blocked_partial`, `C57_initialize`, `C64_order`, `C64_history`, `C97_step`, `C97_stops`, `C97_sessions`, `C101_mnemonics_matter`, `C102_named`
* propext, Classical.choice, Quot.sound: `C01_parse_total`, `C01_analysis_total_partial`, `C01_only_crash`, `C02_token_spans`, `C03_token_spelling`, `C03_token_spelling_lexical`, `C03_token_spelling_with_errors`, `C04_nothing_skipped`, `C04_nothing_skipped_tokens`, `C05_print_tokenize`, `C06_names_longest`, `C06_keywords_exact`, `C06_sigils`, `C07_tree_mentions_tokens`, `C08_source_order`, `C09_modules_parse`, `C09_print_parse`, `C10_no_error_everything_understood`, `C10_every_token_in_statement`, `C11_broken_lines_partial`, `C12_comments_ignored`, `C12_insert_comment`, `C13_branch_targets`, `C14_positions_partial`, `C91_cursor`, `C91_place`, `C16_last_line_partial`, `C17_indexed_once_partial`, `C18_lookup`, `C19_exact`, `C19_tables_agree_partial`, `C20_local_scope`, `C21_no_symbol`, `C21_references_partial`, `C21_declaration_partial`, `C22_definition_partial`, `C94_answers`, `C22_external_defs`, `C23_decode_partial`, `highlights_unique`, `C95_server`, `C24_no_underflow`, `C25_rename_partial`, `C26_new_names_partial`, `C26_rejected_partial`, `C93_exact`, `C27_tokens_partial`, `C27_refuted_colon`, `C28_back_partial`, `C30_shift_partial`, `C30_action_partial`, `C31_no_merge_partial`, `C32_no_overflow_partial`, `C33_offered_partial`, `C34_stale_partial`, `C35_graph`, `C36_incoming`, `C37_code_lens`, `C38_undefined`, `C39_duplicates`, `C40_branches`, `C41_syntax_errors_partial`, `C42_outline`, `C43_folding_partial`, `C44_end_hints`, `C46_relevant_frame`, `C55_last_published`, `C56_terminates`, `C56_progress_partial`, `C56_refuted_four_graphs`, `C58_prepare_rename`, `C59_backtrace_hints`, `C59_crash`, `C60_references_partial`, `C61_same_answers`, `C62_undefined_nowhere`, `C63_one_line_partial`, `C65_causes`, `C65_survives_partial`, `C66_references_partial`, `C66_action_partial`, `C67_back_partial`, `C68_rename_partial`, `C68_shift_partial`, `C69_rename_partial`, `C69_shift_partial`, `C70_documents_compose`, `C70_documents_compose_ascii`, `C70_comment_lines`, `C71_requests`, `C71_diagnostics`, `C72_requests`, `C72_diagnostics`, `C73_rename_navigation`, `C74_function_views`, `C75_navigation_reported`, `C75_reported_navigation`, `C76_rename_again_partial`, `C77_rename_order_partial`, `C78_shift_again_partial`, `C79_shared`, `C79_first`, `C79_second`, `C80_views`, `C80_lenses`, `C80_graph`, `C80_hints`, `C81_undefined`, `C81_duplicates`, `C81_others`, `C82_requests`, `C82_diagnostics`, `C83_requests`, `C83_diagnostics`, `C84_requests`, `C84_diagnostics`, `C85_unread`, `C85_lost`, `C85_blank`, `C85_every`, `C85_applies`, `C86_taken`, `C87_below`, `C87_above`, `C87_graph`, `C88_below`, `C88_settled`, `C88_settled_ascii`, `C89_rename_partial`, `C89_shift_partial`, `C90_accepted_iff`, `C90_one_tree`, `Instances.C90_refuted_comma`, `C91_symbol`, `C91_references`, `C92_recovery`, `C92_reported`, `C93_sessions`, `C94_sessions`, `C94_determined`, `C95_sessions`, `C95_total`, `C95_views_determined`, `C95_determined`, `C95_only`, `C96_replies`, `C96_once`, `C96_sent`, `C96_complete`, `C96_order`, `C96_last_diagnostics`, `C97_differ`, `C97_agree`, `C98_reading`, `C98_reported`, `C98_determined`, `C98_places`, `C98_places_lost`, `C98_told`, `C98_accepted`, `C98_one_way`, `C99_clear`, `C99_whole`, `Instances.C99_cut`, `C100_edits`, `C100_sessions`, `C101_names`, `C102_inside`, `C102_sessions`
<!-- end axioms -->

3. The reading of `/repo/src` as a Lean model (section 1). All unit tests of the crate are repeated on the
   model (`Props/UnitTests.lean`, `Props/Rename.lean`). Evaluated on the four documents in `/repo/examples`
   (10 to 400 thousand characters), the model reads all of their statements (18, 90, 203 and 394) without an error.
4. The reading of the libraries, whose sources were not available. Relied upon:
   * chumsky 0.9.3: the semantics of `just`, `any`, `filter`, `filter_map`, `one_of`, `none_of`, `end`,
     `take_until`, `text::int`, `then`, `ignore_then`, `then_ignore`, `chain`, `delimited_by`, `padded_by`,
     `or`, `choice`, `or_not`, `not`, `rewind`, `repeated`, `at_least`, `separated_by`, `map`,
     `map_with_span`, `validate`, `to`, `ignored`, `collect`, `recover_with(skip_then_retry_until)` and
     `parse_recovery`: the choice between alternatives, the merging of errors, where recovery resumes,
     spans counted in characters, the span of an error at the end of the input. (Of two merged errors the
     reason of the first is kept. In commit 01a9c5e custom reasons took precedence; C01-C82 were proved for that
     reading as well, C83 only for the present one.)
   * ropey 1.6.1: `try_line_to_char`, `try_byte_to_line`, `try_byte_to_char` and its set of line breaks.
   * url 2.4: `path_segments_mut().extend`, dropping tabs and line ends; `to_string`.
   * serde_json: a value is null, a Boolean, a number, a string, an array or an object.
   * dashmap 5.5: shards with blocking read/write locks, a `Ref` holds the read lock.
   * tower-lsp 0.20: handlers run inside one task, at most four at a time; a panic of a
     handler ends the server. Notifications and requests to the client keep the order in which
     their sending was begun (a `futures` channel, every message with a sender of its own);
     replies are written in the order in which the handlers return.
   * std: string and integer functions (`split`, `rfind`, `split_at`, `strip_prefix`, `ends_with`,
     `contains`, `replace`, `parse::<i64>`, `parse::<u32>`, `wrapping_abs`, byte slicing panics inside a
     character).
5. The English statements of `properties.jsonl` against the Lean statements. The definitions of
   `lean/Verif/Spec` are what a reader has to check.

## 4. Checks on the theorems themselves

* Beside each property theorem there is a concrete, non-trivial example that meets its hypotheses.
* `seeded/LOG.jsonl` records edits of the model that imitate realistic bugs, the theorems that no
  longer hold, and what was tightened when a wrong program slipped through.
