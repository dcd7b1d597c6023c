C01 `panic` is an explicit result of combinators, indexing and handlers; every `repeated` has an explicit loop bound whose exhaustion is a panic, so "no panic" includes termination. Proved by a progress measure on the remaining tokens.
C02 Through the equivalence of the combinator tokenizer with the relation `Lexes` of `Spec/Lexical.lean` (maximal munch, one case per token kind), then induction.
C03 As C02; the spelling of a token is defined in `Spec/Lexical.lean` independently of the tokenizer.
C04 As C02: the text is cut into tokens, blanks and the regions of the errors.
C05 Forward direction: tokenizing the printed form of any token list with admissible separators.
C06 Facts about `Lexes`: the character after a name is no name character; keywords are whole words.
C07 A Hoare logic for the combinators ("consumes a prefix, mentions only consumed tokens, in order"), one lemma per combinator and per grammar rule (`Proofs/Mentions.lean`).
C08 As C07: the mention list of the tree is a sublist of the token list.
C09 Grammar as an inductive specification (`Spec/Grammar.lean`, `Spec/Module.lean`), forward simulation per rule.
C10 Soundness per rule: if no error is reported the tokens derive the tree in the grammar of the specification.
C11 Specification of "broken line" in `Spec/Recovery.lean`; the recovery strategy is analysed by induction on the skipped tokens.
C12 The parser is natural in the spans (`Proofs/Natural.lean`); inserting a comment only moves spans.
C13 Forward and backward per branching instruction.
C14 Line/column specification `LspLine`-style in `Spec/Position.lean`; ropey's maps on lists of characters.
C15 From the monotonicity of the maps of C14.
C16 Witness; and the case that holds.
C17 Ghost state over the indexing folds (`Inv` in `Proofs/Index.lean`) against the occurrences defined from tokens and tree in `Spec/Symbols.lean`.
C18 From C17 and the disjointness of token spans (C02).
C19 From C17.
C20 From C17: occurrence lists per function body.
C21 C17–C19 composed with C14 at the level of the server handlers.
C22 Annotation strings and debug references in `Spec/Numbers.lean`/`Spec/Symbols.lean`; fold over the annotation statements.
C23 A decoder as specification (`Spec/Highlight.lean`).
C24 Induction over the token list with the monotonicity of positions.
C25 Edits against the occurrences of C17.
C26 The name check evaluated against an independent description of names.
C27 Edit application as specification (`Spec/Edits.lean`); the tokenizer with its errors as a relation (`Proofs/LexErrors.lean`), which is carried along the edits (`Proofs/LexRename.lean`).
C28 The parser commutes with a renaming of tokens (`Proofs/Equivariant.lean`), hence the occurrences after the rename are those before. Labels with the name of an instruction word: the reading of C98 (`Layout`) is carried over form by form, since the words that make up an instruction are never read as labels there (`Proofs/RelabelDoc.lean`).
C29 Digits and values specified in `Spec/Numbers.lean`.
C30 Edits against the occurrences; arithmetic on integers with explicit 64-bit bounds.
C31 From C30 and the injectivity of printing numbers without leading zeros.
C32 Bounds from C30.
C33 Eager and lazy paths are composed of the same handler function; the offered actions are characterised by C18 and C29.
C34 Resolution on an arbitrary other document.
C35 Edges as a relation on the parsed function (`Spec/Flow.lean`).
C36 As C35, counted per label.
C37 Lenses against the definitions; the command executed on the lens's own arguments.
C38 Exact multiset of diagnostics against the occurrences of C17.
C39 As C38.
C40 As C38, against the instructions.
C41 Errors in order against the published list.
C42 Outline against `Spec/Outline.lean`.
C43 As C42.
C44 As C42.
C45 Pure function on JSON trees; `serde_json::from_str` is a parameter.
C46 Preference order as a relation; the chosen frame is minimal in it.
C47 Characters of the result.
C48 Specification by decomposition of the path.
C49 Characterisation of the byte slices by character boundaries.
C50 URL paths as segment lists.
C51 State machine over arbitrary histories (`Spec/History.lean`), refined to a map from URIs to the latest text.
C52 State equality for every request.
C53 Handlers on documents not in the map.
C54 The handler against "apply all changes".
C55 Publications of a history against the stored texts.
C56 Small-step semantics of the handlers over shard locks and mutexes (`Model/Locks.lean`), all schedules.
C57 The `initialize` handler and its effect on later code actions.
C58 The handler against the occurrences of C17.
C59 The hint handler against the instructions, the annotation table and the relevant frame of C46.
C60 As C28.
C61 The lookups of C18 at the two positions and the specification of `get_use_def_ranges` behind C21.
C62 The undefined uses of C38 against the locations of C21 and C22.
C63 The decoded highlights of C23, and token spellings (C03) without line ends.
C64 Handler by handler: permuting the maps permutes the lists made from them; induction over the history.
C65 Handler by handler: where a panic can come from, in terms of the text (C01, C20, C22, C24, C45, C59); every known document is the analysis of a text that was sent.
C66 The machinery of C60 for several symbols renamed at once (`Plan`, `Separate`), with the names of C30.
C67 The shift back renames exactly the shifted occurrences, to their old names; the changes are the inverse of the first ones.
C68 The parser commutes with a renaming of tokens including its errors (`Renaming.Rel` relates whole results), so the reports of each kind correspond one to one. If all statements can be read, the errors are those about unrecognizable text and mnemonics only (C98), which do not depend on labels at all.
C69 `Carried` says how text, tokens and tree move; names contain no line ends, so every position stays on its line (`Carried.lines`).
C70 `many_docItem_append` (what the parser does with a clean document does not depend on what follows its last line feed), naturality of tokenizer and parser in the positions (`Move`), `longest_continue` for the tokens.
C71 Naturality of tokenizer and parser in the positions (C70), then of the index (`createIndex_moved`), of the position conversion below whole ASCII lines (`Under`), and of each handler (`MovedDoc`).
C72 Both texts are compared with the bare code (`Placed`): its tokens and errors are moved by an increasing map that is linear within each line (`placed_lexes`, `placed_pos`), the parser and the index follow (`Move`, `createIndex_placed`), and each handler sees only positions (`Twin`).
C73 All handlers read the same entry (C19); its lists are compared without looking at positions.
C74 Every function body has convertible ranges (C02, C15); the handlers are maps over the same list, and the table of functions lists the same names (`defs_bodies`).
C75 Both read the definitions of one entry; the order of the list is that of the text (`listed_defs_order`).
C76 The text after a rename is parsed as the renamed document (`Stage`, from C60); edits of edits are edits of the first text (`replaced_then`).
C77 As C76; both orders give the text in which each symbol has its new name (`Changed`, `changed_unique`).
C78 As C76 with the plan of a shift; the shifted symbols of the new text are the shifted ones of the old.
C79 By C88 (C70 for error-free parts) the whole has the tokens and statements of both; `Joined.occurs` gives its occurrences, `JoinedIx.listed_*` the lists of the index, and the line lemmas of C71 the places.
C80 By `Joined` (C79) the bodies of the whole are those of A and those of B moved, up to what the views read (`bodyKey`); each view is then split with the line lemmas of C71. `NoRefs` separates the annotations.
C81 `JoinedIx.undefinedUse` and the `firstDef_*` lemmas carry undefined uses and first definitions of the parts (C38, C39) to the whole; `occurs_spelled` (sigils) turns names into kinds of symbols.
C82 Tokens are counted instead of characters (`countedFrom`, `layMove`): the parser and the index are natural in positions (`parseTokens_move`, `createIndex_laid`), so both documents are images of one analysis of counted tokens; `Laid.*` carries each answer over.
C83 A relation between the runs of each parser on the tokens with and without the dropped line ends (`Good`, `ErrAt`): same outputs, same spans, errors at corresponding places, so that "furthest error" comparisons agree; line ends are dropped only where no parser started in between counts them (`Vis`, `Tight`, `Opn`). Then as C82 (`Reading`).
C84 The text is cut behind the line end (`lexes_split`), the inserted lines have no tokens that count (`Inserted.after`), so C83 applies; corresponding tokens then stand at positions moved down (`offsetToLspPos_insert`), and the relations of C83 are weakened to that (`AlikeReply.mono`).
C85 Each alternative of the tokenizer is evaluated on a character it cannot start with (`tokenChoice_alien`, `tokenChoice_cr`, `tokenChoice_quote`), so the merged error is known exactly (`lexErr`), also when recovery skips further (`skipThenRetry_errs`); `tokenize_exact` gives the list of errors, which is published first. At unrecognizable text at the end the tokenizer fails, and the error it fails with is merged from what the repetition and the end-of-input parser expected; it has the place and the character of `lexErr` because no alternative gets further (`Near`, `tokenize_lost`).
C86 As C60; a function stays a function because no symbol of another kind has the name (`isFunction_taken`), and the two symbols become one by comparing kind, scope and name (`rename_joins`).
C87 The answers in both versions are those of the part alone, moved (`second_found`, `first_found`); the part alone is read in the same way each time, so the answers agree.
C88 `Shut` (Proofs/Shut): every part of the grammar, run on whole lines in front of a token that starts a statement, stops at that token, and its result does not depend on what is behind it; `doc_shut` carries this through error recovery. `squash` (naturality in the positions) shows where the errors lie.
C89 The tokens and statements of both documents correspond (`Carried`, from C60/C66) and names change consistently (`Keeps`); lenses, highlights and hints are mapped through that correspondence (`lenses_kept`, `highlights_kept`, `hints_kept`), and positions keep their lines because names contain no line ends.
C90 Proofs/Exact: on tidy lines each documented form stays on its line (`known_oneLine`); if any form fits, the parser finds it (`known_complete`), so its choice and that of the grammar agree (`kind_sound`, `kind_complete`), and this is carried through instructions, blocks, bodies, statements and documents (`many_docItem_exact`). That there is one tree follows because the parser is a function.
C91 Proofs/Wide: lines are counted in characters (`charToLine`), where the server and the protocol agree (`lspLine_usual`); the number of characters in the first n bytes is n exactly if they are ASCII (`byteToChar_eq`), and the UTF-16 length of a text is its length exactly if it is basic (`utf16Len_eq`).
C92 Proofs/Stretches: with such lines no statement is read with an error (`kind_clean`, `pStatement_whole`), so a statement is read exactly where the grammar has one (`readsAt_iff`); each stretch makes the recovery skip its tokens and leaves an error (`many_docItem_stretches`); the split exists (`stretches_total`) and is unique (`stretches_unique`).
C93 Proofs/CrashSites: every outcome that can be a panic gets an "iff" in terms of the specification (`symbolAt_under`, `resolve_stuck`, `extract_panic_iff`, `getShiftEdits_panic_iff`, `externalLocations_panic_iff`, `backtraceHint_panic`, `renameEdits_panic_iff`), and the messages are compared one by one.
C94 Proofs/Answers: positions in every text are described by `ShownPlace` (`offsetToLspPos_shown`), printed numbers by `NumberText` (`numberText_iff`), found files by `FoundAt` (`resolve_found`); the requests are then compared with `Correct` one by one, using that the index lists exactly the occurrences (C18–C20). That the description determines the replies is in Props/Determined (`shownRange_unique`, `inRole_unique`, `renumbered_perm`, `refused_unique`, …).
C95 Proofs/Effects: each view is first described by `Picks`/`Each` over what the parser gives (`tokens_shown`, `outline_shown`, `folds_shown`, `incoming_shown`, `traces_shown`, `ends_shown`, `lenses_shown`, `command_shown`, `diagnosed`), with the places of C94; the messages are then compared with `Effect` one by one, and C93 and C94 supply the crashes and the requests about symbols. That the description determines the effects is in Props/Determined.
C96 Props/Schedule: an invariant of all schedules (`OutInv`, beside `RunInv` of C51) that relates what was sent, what was returned and the handlers in progress to the replies of `run`; a handler is only left at its one `.await`, after which it has no effects (`Passive`).
C97 Props/Builds: the outcomes of the functions that compute with machine numbers are compared one by one (`i64Op_build`, `u32Sub_build`, then everything that calls them); where the builds differ follows from the exact causes of a panic (C93).
C98 Proofs/Reading: every reading of the grammar with look-ahead (`Layout`) is followed by the parser and vice versa, form by form (`lineAt_sound`, `lineAt_complete`, …, `foundAt_sound`, `foundAt_complete`); the readings exist (`layout_total`) and are unique (`layout_unique`). Proofs/Blame: no parser reports an error anywhere but at a token ahead of it or at the end of the input (`Fair`), and the only secondary errors are those about mnemonics.
C99 Props/Clear: the description of the published diagnostics (C95, `diagnosed`) is taken apart: no lexical error and no error about a mnemonic is at the end of the text, and only errors at the end have no place (`error_unshown`); what was read comes from C98. Two first definitions of a symbol are the same (`firstDef_unique`).
C100 Props/Together: the replies to the three requests with edits (C94, `answers_edits`, which needs the sizes only) list different occurrences of symbols of one kind; these are at different tokens (`occurs_kind`, also for variables with the name of a function), and later characters are shown at later places in every text (`shownPlace_le`).
C101 Props/Names: the tokens are counted instead of measured (as for C82); names other than labels are exchanged by the commutation of the parser with renamings (Proofs/Equivariant), labels by carrying over the reading of C98 (`parseTokens_renamed`, Proofs/RelabelDoc), and places by the naturality of the parser (Proofs/Natural).
C102 Props/Inside: every kind of message is followed through the model (`step_names`): all documents written into a reply are the one of the request, except for the locations of external definitions, which come from `resolveRelativePath`; for these see C50, and C22 for the annotations they come from.
