# Formal model of jinja-lsp in Lean 4 — design

## 1. What is modelled, and how

The code under /repo is about 3 200 lines of Rust. Its own logic (as opposed to its libraries) is
modelled function by function; every Lean definition cites file and lines.

| Lean module (lean/Verif/…)  | Rust source |
|---|---|
| `Model/Base.lean`       | points, ranges, hash maps, panics, arithmetic profile, `Env`/`World` oracles |
| `Model/Ident.lean`      | `search/mod.rs` (Identifier, completion_start, to_range …), `tree_builder.rs` |
| `Model/Rope.lean`       | the part of `ropey` that is used; `to_input_edit.rs` |
| `Model/Definition.lean` | `search/definition.rs` |
| `Model/Objects.lean`    | `search/objects.rs` |
| `Model/Imports.lean`    | `search/templates.rs` |
| `Model/Backend.lean`    | `search/rust_identifiers.rs`, `rust_template_completion.rs`, `python_identifiers.rs`, `snippets_completion.rs` |
| `Model/Helper.lean`     | `lsp_helper.rs`, `config.rs::file_ext`, `std::path` fragments |
| `Model/LspFiles.lean`   | `lsp_files.rs` |
| `Model/Server.lean`     | `channels/lsp.rs`, `channels/diagnostics.rs`, `config.rs::walkdir/search_config`, `backend.rs` |
| `Model/Protocol.lean`   | the two tasks and their bounded channels (`backend.rs::_new`) |
| `Model/Client.lean`     | the methods of `impl LanguageServer for Backend` (`backend.rs`) and the message each sends |
| `Model/Handlers.lean`   | the same methods as concurrently running handlers: sending, waiting for the answer, cancelled (`backend.rs`) |
| `Model/Capabilities.lean` | the capabilities in the answer to `initialize` (`channels/lsp.rs:63-109`) |
| `Model/Config.lean`     | `config.rs` `JinjaConfig`, `ExternalConfig`: decoding of settings from JSON and TOML values (`serde`), the settings the plugin for VS Code sends |
| `Model/Tables.lean`     | `filter/mod.rs`, `template_tests/mod.rs`, `snippets_completion.rs::snippets`: constant tables |
| `Model/Node.lean`       | `jinja-lsp-nodejs/src/lib.rs` |
| `Model/Queries.lean`    | `search/queries.rs`: the texts of the queries, interpreted over syntax trees |

### Libraries become parameters
* **tree-sitter**. A parse tree is the *free term* of the calls that made it
  (`Tree.parsed grammar text old | Tree.edited t e`): since the parser is deterministic every real tree
  is a function of that term. Running a query is an oracle
  `Env.queryMatches : QueryId → Tree → text → List (List Capture)`; a capture carries name, node id, start/end
  point, text (`none` = not UTF-8), first/last child ranges and parent start, i.e. everything the Rust code
  reads from it. All theorems hold for every oracle; theorems about "templates" take the capture stream that
  the queries produce for a template AST. C70–C78 replace the oracle by `Env.over env sx`, which interprets the query
  texts of `queries.rs` over arbitrary syntax trees (`Model/Queries`), so there the stream is derived, not assumed;
  only the map from texts to syntax trees (the grammars) stays a parameter. Simplified there: where a pattern ends with
  `+`, `*` or `?` only the longest choice is reported; the captures of the optional parts of `from`/`import` statements
  are left open (`Syntax.options`; nothing reads them), and so is whether the queries for template names also report
  calls with other callees (`Syntax.loose`; their predicate stands inside an alternation).
  `Parser::parse` may fail (`Env.parseFails`).
* **ropey** (1.6.1, default features): text is a `List Char`; line breaks are LF, CR, CRLF, VT, FF, NEL, LS, PS;
  `line_to_byte`, `len_lines`, `remove`, `insert` including their panics are defined, not assumed.
* **std::fs, walkdir, toml, url**: oracles (`World`, `Env.urlParse`, `Env.tomlConfig`; C100 gives the latter in terms of a parser into values; C112 assumes `Spec.UrlStandard` of `urlParse`). The file system may be different at
  every step.
* **HashMap**: association list with unique keys; every iteration passes through an arbitrary
  `HashOrder` (any permutation, possibly different at every iteration site and every step).
* **Panics** are explicit values (`Except Panic`); arithmetic underflow panics in the debug profile and wraps
  modulo 2^64 in release (`Profile` is a parameter).
* **tokio**: tasks and channels are a transition system with nondeterministic schedule.

### Not modelled
Grammars of tree-sitter (which syntax tree a text yields), JSON-RPC framing and tower-lsp's dispatcher, wall clock
durations (only expiry order), logging, memory exhaustion, non-UTF-8 paths, Windows paths, panics inside
tree-sitter when a stale tree is sliced out of range (`utf8_text` on a tree longer than the text; the model only has
"text not readable"; C104 shows that no such slice happens without range-less changes), the editor plugin (TypeScript) except for the settings it sends (`Model/Config`), parsing of JSON and
TOML texts into values, documentation texts of filters. C65–C104 speak about the messages in the queue of the worker; C106 connects
these with the concurrently running handlers.

## 2. How properties are stated
`Spec/*.lean` contains small, independent specifications (LSP text edits, template AST with block structure,
path lookup, Jinja's scoping rules…). `Spec/Jinja.lean` (C120, C121) is our reading of the scoping rules in the documentation of Jinja and
minijinja: `set`, imports and macros bind up to the end of the enclosing scope; loops, `with`, macros, `call`, `block`, `filter` and block-form
`set` are scopes, `if` is not; headers are evaluated first. `Props/*.lean` contains only the property theorems with, beside each, an `example` showing that a
concrete non-trivial case meets its hypotheses. Helper lemmas are in `Lemmas/*.lean`.
When a property is false of the code, `Props` contains (a) a theorem with suffix `_refuted` (or a universally
quantified negative statement) exhibiting the failure, (b) the strongest `_partial` theorem we can prove; the MANIFEST
status is then `partial`.

## 3. Trusted base
* Lean 4.33 kernel. Axioms allowed: `propext`, `Classical.choice`, `Quot.sound` (Lean's standard ones). No `sorry`,
  no own axioms, no `native_decide`/`bv_decide`.
* Our reading of the Rust source (citations in each definition) and of the documented behaviour of ropey, std
  (`str::split`, `PathBuf::push`, `Path::extension`, `Iterator::max`), tokio channels.
* Assumption used only by the theorems about templates as syntax (C11, C12, C13, C16, C17, C21, C64 and the theorems
  composed from them: C25, C28, C30, C33, C35, C43, C58): inside one statement tree-sitter reports the captures of
  its tokens in text order and the match of the pattern `(statement (statement_begin) (statement_end))` when its last
  child is reached, i.e. after them. The repository's own tests rely on this order. For C70–C78 this order is a
  consequence of the walk in `Model/Queries` (a match is reported when the last node of its pattern is reached), and
  that reading of tree-sitter's documentation is what is trusted.
* A dot matches two alternatives of the query OBJECTS (`@dot`, `@pipe`). The model reports `@pipe` first; with the other order the
  repository's test `find_jinja_completion` would fail.
* `Checks/Upstream.lean` evaluates all tests of the repository (`test_queries.rs`) in the model. They are checks of our reading of the
  source, not proofs, and nothing depends on them; the trees come from a small scanner (Jinja) or are written by hand (Rust, Python).
* Assumptions about tower-lsp and tokio used only by C106: handlers are started in the order in which calls arrive, they are polled for
  the first time in this order (`FuturesUnordered` keeps woken handlers in a queue), and senders waiting for room in an mpsc channel get it
  in the order in which they began to wait (documented fairness of the semaphore). A handler whose task has used up tokio's cooperative
  budget begins to wait later; that this does not happen between the first polls of two handlers is assumed, too.

## 4. Properties: what is modelled, how it is proved, what is missing

Generated from the manifest; the modules are in `lean/Verif/Props`. "Result" says what holds; `_refuted` theorems are proofs that the claim fails for the stated inputs.

* **C01 Incremental edits keep the server's text equal to the editor's** (partial; Sync.lean, Text.lean). Modelled: `did_change`, `ropey` offsets (`Model/Rope`, `LspFiles.didChange`); specification `Spec/Text`: LSP lines and UTF-16 columns on a list of characters. Proof: rope offset = LSP offset on plain positions; induction over the changes of a notification and over histories of messages; converse (C01_exact): server offsets are never smaller than the LSP ones and equal only at plain positions, and an insertion at a larger offset is wrong for one of any two characters; refutations by explicit families. Theorems: `C01_history_partial`, `C01_edit_partial`, `C01_batch_partial`, `C01_ascii_partial`, `C01_offset_drift`, `C01_refuted_nonascii`, `C01_refuted_column`, `C01_refuted_formfeed`, `C01_exact`. Result: Proved for histories of plain edits (the lines above a position are ASCII without VT/FF, its column lies inside the line and no character before it in the line needs two UTF-16 units). C01_exact: in texts whose line terminators are LF, CR and CR LF only, these are exactly the edits the server gets right for every inserted text. The full claim is false: the three refuted theorems give a valid edit after which server and editor disagree (non-ASCII text, column past the line end, form feed), and C01_offset_drift gives the size of the error.
* **C02 A whole-document change is honoured** (partial; Sync.lean). Modelled: `did_change` with a change without range. Proof: case analysis of `applyChanges`; universal negative statements. Theorems: `C02_full_change_ignored`, `C02_stale_tree`. Result: The claim is false: C02_full_change_ignored and C02_stale_tree show that a change without a range is never honoured and leaves earlier edits of the same notification applied with the old tree. Proved part: purely ranged notifications keep text and tree together (C03_fresh_partial).
* **C03 The stored parse tree always describes the stored text** (partial; Sync.lean). Modelled: all worker messages; trees are terms of the parser calls that made them. Proof: invariant `Fresh` by induction over message histories (`Lemmas/Files`, `Lemmas/Server`). Theorems: `C03_fresh_partial`, `C03_start`. Result: Invariant over all histories without range-less changes, assuming the incremental parser never fails and files keep their language class on disk; the excluded case is refuted by C02_stale_tree.
* **C04 The edit reported to the incremental parser is the edit that was made** (partial; Sync.lean, Text.lean). Modelled: `to_input_edit`, `input_edit`. Proof: arithmetic of byte offsets; induction over the changes of a notification; rows and columns of the rope and of tree-sitter agree on plain texts (advance_terminators), hence the exact condition for the new end; refutation for every append. Theorems: `C04_handed_partial`, `C04_regions_partial`, `C04_new_end_partial`, `C04_append_wrong`, `C04_new_end_exact`, `C04_line_exact`. Result: Start and old end are exact for every in-range forward change with plain positions; the new end point is right, in plain texts, exactly when the old text from the start of the edit leads to the same row and column as the inserted one (C04_new_end_exact), without line breaks: when the rest of the line is at least as long (C04_line_exact), so never when typing at the end of a line. C04_append_wrong refutes the claim in general (new end is computed in the old text).
* **C05 Offset/position conversion round-trips** (proved; Text.lean). Modelled: `to_position`, `to_byte` of `to_input_edit.rs` with its binary search. Proof: loop invariant of the binary search, strict monotonicity of line starts. Theorems: `C05_roundtrip`, `C05_monotone`, `C05_inverse`. Result: For texts below 4 GiB (positions are u32).
* **C06 Exactly which edits crash the server** (proved; Text.lean, Worker.lean). Modelled: panics of `ropey` and of arithmetic as values; the worker as absorbing state. Proof: exact condition by case analysis; induction over the batch; induction over histories and over `Steps` of the task system. Theorems: `C06_edit_crash_iff`, `C06_forward_ok`, `C06_valid_edit_crashes`, `C06_notification_crash_iff`, `C06_dead_worker`, `C06_after_crash`, `C06_never_revived`. Result: Crash condition characterised exactly, per edit and per notification; in-range forward edits are safe; after a crash every reply is empty, for ever. C06_valid_edit_crashes exhibits a valid edit that crashes.
* **C07 Delayed re-analysis after typing** (partial; Worker.lean). Modelled: delayed tasks as a list of timers with handles, expiry at any time. Proof: invariant over interleavings of messages and expiries; refutations from every state. Theorems: `C07_at_most_one_partial`, `C07_last_changed_partial`, `C07_lost_reanalysis`, `C07_two_pending`, `C07_pending_stays`, `C07_expiry_saves`. Result: At most one pending re-analysis and it is for the last changed document, in runs without quick fixes or workspace reloads; C07_lost_reanalysis and C07_two_pending refute the rest (a change to a second document cancels the first one's re-analysis; a reload detaches a pending timer).
* **C08 Changes to unknown documents are ignored** (proved; Sync.lean). Modelled: `did_change`. Proof: case analysis. Theorems: `C08_unknown_document`.
* **C09 Documents are independent** (proved; Sync.lean). Modelled: `did_open`, `did_change`, `did_save`. Proof: frame lemmas for every helper. Theorems: `C09_independent`.
* **C10 Unsupported files are ignored** (proved; Sync.lean). Modelled: `file_ext`, `Path::extension`, all entry points. Proof: path algebra (`Lemmas/Path`), case analysis. Theorems: `C10_unsupported`, `C10_last_extension`.
* **C11 A definition's scope is its enclosing block** (proved; Definitions.lean). Modelled: `definition.rs`; specification: template syntax trees (`Spec/Template`) and their capture stream. Proof: induction over the tree with a generalised scope stack (`Lemmas/Template`). Theorems: `C11_scopes`, `C11_symbols`. Result: Assumes the capture order described in DESIGN.md for well-nested templates; C11_symbols states it through didOpen and documentSymbol.
* **C12 else/elif and block set do not disturb scopes** (partial; Definitions.lean). Modelled: as C11 with branches, `endset`, conditional expressions. Proof: the same simulation; refutations for every template of the shape. Theorems: `C12_toplevel_branches_partial`, `C12_toplevel_endset_partial`, `C12_else_refuted`, `C12_loop_else_refuted`, `C12_endset_refuted`, `C12_inline_if_refuted`. Result: The claim is false in general: C12_else_refuted, C12_loop_else_refuted, C12_endset_refuted and C12_inline_if_refuted show, for all templates of the given shapes, the wrong scopes recorded. Proved: constructs at top level leave everything outside them unchanged. The exact rule for every tag sequence is C64.
* **C13 Both loop targets of a for are recorded** (partial; Definitions.lean). Modelled: as C11. Proof: invariant of the definition machine: no second target is ever stored. Theorems: `C13_key_partial`, `C13_no_loop_value`. Result: C13_no_loop_value refutes the claim for every template (no second target is ever recorded); the first target is recorded with the right scope.
* **C14 Recorded definitions come from the text** (proved; Definitions.lean). Modelled: `definition.rs` on arbitrary capture streams. Proof: invariant over streams. Theorems: `C14_from_text`.
* **C15 Analysis stops at the first syntax error and is unaffected by later text** (proved; Definitions.lean). Modelled: the four analyses, arbitrary capture streams with an error capture. Proof: determinacy of the machine on the common prefix. Theorems: `C15_definitions`, `C15_definitions_names`, `C15_uses`, `C15_imports`, `C15_backend`. Result: For whole-document analyses, and for cursor analyses when the error starts at or before the cursor. Scopes left open at the error end at the end of the document (C15_definitions).
* **C16 Binding constructs bind only their targets** (partial; Definitions.lean). Modelled: headers of `with` and `macro`. Proof: simulation of the header; induction over assignments and parameters. Theorems: `C16_with_recorded`, `C16_with_partial`, `C16_with_refuted`, `C16_macro_partial`, `C16_macro_refuted`. Result: True when right-hand sides and defaults contain no identifiers; refuted otherwise for every header (C16_with_refuted, C16_macro_refuted).
* **C17 Variable uses are recognised exactly** (partial; Expressions.lean). Modelled: `objects.rs`; specification: sequences of expressions (`Spec/Expr`). Proof: induction over expressions with an invariant of the object machine (`Lemmas/Expr`, `Lemmas/Objects`). Theorems: `C17_uses_partial`, `C17_reserved_attribute_refuted`, `C17_reserved_test_refuted`. Result: For every well-formed sequence of expressions (Spec/Expr.lean); false with attributes of reserved words (loop.index) and tests against reserved words (C17_*_refuted). a[i].b is outside the grammar of the spec and is also attributed to i.
* **C18 Cursor queries over expressions never fail arithmetically** (partial; Expressions.lean). Modelled: u32 arithmetic in both build profiles; all requests. Proof: case analysis with bounds; refutations for every name and position. Theorems: `C18_hover`, `C18_code_action`, `C18_goto`, `C18_completion_partial`, `C18_multiline_refuted`, `C18_last_column_refuted`. Result: hover, code action and goto never fail arithmetically when no operator starts at the first character of the document (true of the grammar); completion needs names on one line and a column below 2^32-1; the two refutations show that these conditions are needed. goto can still panic by Url::parse(..).unwrap(), see C37.
* **C19 Completion kind matches the cursor context** (partial; Expressions.lean). Modelled: `objects.rs::completion`, `lsp_files.rs::completion`. Proof: decision lemmas (`Lemmas/Completion`). Theorems: `C19_filter_partial`, `C19_identifier`, `C19_test`, `C19_origin_refuted`. Result: Identifier and test completion as stated; filter completion except at the very first position of a document, where it is offered in every template (C19_origin_refuted).
* **C20 The completion prefix is the text typed so far** (partial; Expressions.lean). Modelled: `completion_start`, byte prefixes. Proof: arithmetic; position lemmas of `Lemmas/Cursor`. Theorems: `C20_identifier_prefix`, `C20_template_prefix`, `C20_typed_partial`, `C20_attribute_refuted`, `C20_quoted_refuted`. Result: Always a prefix; equal to the typed text for variable, filter and test names. False for attributes and for quoted template names (C20_*_refuted).
* **C21 The template name under the cursor is found** (partial; Imports.lean). Modelled: `templates.rs`; specification: import statements (`Spec/Imports`). Proof: simulation over statements, cursor lemmas (`Lemmas/UnderCursor`). Theorems: `C21_goto_partial`, `C21_inner_quote_refuted`, `C21_completion_partial`. Result: Proved for names without quote characters inside, and for completion for single-line ASCII names; C21_inner_quote_refuted: for a name such as it's.html another file is opened.
* **C22 Backend variables are exactly the declared ones** (proved; Imports.lean). Modelled: `rust_identifiers.rs` through `did_open`. Proof: induction over the stream. Theorems: `C22_backend_variables`. Result: Stated through didOpen of a backend file whose captured texts are valid UTF-8.
* **C23 Backend template references** (proved; Imports.lean). Modelled: `rust_template_completion.rs` through `did_open`. Proof: induction over the stream with the flag as invariant. Theorems: `C23_template_references`. Result: Stated through didOpen; the recorded references are exactly the first string arguments after accepted calls, in order.
* **C24 Snippets are offered exactly in broken statements** (proved; Imports.lean). Modelled: `snippets_completion.rs` through `completion`. Proof: induction over the stream. Theorems: `C24_snippets`. Result: For cursor columns below 2^32-1 and a first or character-triggered completion request.
* **C25 Undefined-variable diagnostics are exact** (partial; Diagnostics.lean). Modelled: `search_errors` through `did_open`/`did_save`; specification of visibility in `Spec/Diagnostics`. Proof: decision theorem composed with C11 and C17. Theorems: `C25_reports_partial`, `C25_wellnested_partial`, `C25_broken`. Result: Reports of a save or an open are exactly those of the specification over the recorded definitions; for well-nested templates the definitions are those of the template (C25_wellnested_partial). A file with a syntax error loses its definitions (C25_broken).
* **C26 hide_undefined silences only variable diagnostics** (partial; Diagnostics.lean). Modelled: `ignore_globals`, start-up, all messages. Proof: invariant over messages; non-interference of missing-template reports. Theorems: `C26_silent_partial`, `C26_established_partial`, `C26_failed_start_refuted`, `C26_missing_unchanged`, `C26_start_missing_unchanged`. Result: No undefined report while the workspace hides them, which every successful start with the setting brings about; a start that fails leaves the old setting in force (C26_failed_start_refuted). Missing-template reports do not depend on the setting.
* **C27 "Defined in other file" is truthful** (partial; References.lean). Modelled: `search_errors`. Proof: membership lemmas for shuffled maps. Theorems: `C27_known_partial`, `C27_own_block_refuted`, `C27_template_name_refuted`. Result: The name is always in the table of another file or is a block of this file; the two refutations show that this is weaker than being defined in another file.
* **C28 Missing-template diagnostics are exact** (partial; References.lean). Modelled: `search_errors`, `path_items`, `canonicalize` as oracle. Proof: decision theorem composed with C21 and C23. Theorems: `C28_template_partial`, `C28_backend_partial`, `C28_other_error_refuted`. Result: Exact up to look-ups that fail otherwise than with NotFound, which are never reported (C28_other_error_refuted); templates for open and save, backend files for open.
* **C29 Template names cannot escape by being absolute** (proved; References.lean). Modelled: `path_items`, `PathBuf::push`. Proof: path algebra (`Lemmas/PathItems`); non-interference of the file system. Theorems: `C29_looks_below`, `C29_checked_path`. Result: Both as a statement about the path that is checked and as non-interference: file systems that agree below the templates directory give the same diagnostics.
* **C30 Goto-definition and diagnostics agree on template files** (partial; References.lean). Modelled: `goto_definition` and `search_errors`. Proof: composition of C21, C28 and path algebra. Theorems: `C30_plain_partial`, `C30_absolute_refuted`. Result: For names written as plain relative paths; C30_absolute_refuted: for a name with a leading slash goto opens the absolute path although the path below the templates directory was checked.
* **C31 Saving always refreshes diagnostics** (partial; Publish.lean). Modelled: `did_save`, diagnostics task, two-task system. Proof: totality of the analyses on readable captures; construction of the task steps. Theorems: `C31_save_publishes_partial`, `C31_published_partial`, `C31_unreadable_refuted`. Result: Proved for documents whose statement keywords can be read as text; C31_unreadable_refuted: otherwise the save is a panic.
* **C32 Opening a document publishes its diagnostics** (partial; Publish.lean). Modelled: `did_open`. Proof: case analysis of the analysis result. Theorems: `C32_open_publishes_partial`, `C32_first_error_refuted`. Result: Backend files, templates without syntax error and templates analysed before; C32_first_error_refuted: the first open of a template with a syntax error publishes nothing.
* **C33 A syntax error does not erase what is known** (partial; Publish.lean). Modelled: `did_open`/`did_save` with syntax error. Proof: decision theorem; refutation for every template of the shape. Theorems: `C33_never_analysed_partial`, `C33_refuted`. Result: False for templates that were analysed before (C33_refuted); holds while the template was never analysed.
* **C34 Published diagnostics are faithful** (proved; Publish.lean). Modelled: `diagnostics.rs`. Proof: induction over the shuffled entries; permutation argument. Theorems: `C34_faithful`, `C34_analysis_published`. Result: For results whose file names are URLs (Url::parse(..).unwrap()) and positions below 2^32, which tree-sitter guarantees.
* **C35 Goto-definition picks the latest visible definition** (proved; Goto.lean, Others.lean). Modelled: `goto_definition`, `Iterator::max_by`. Proof: `max` lemma (`Lemmas/Latest`), C17 for the name at the cursor, C11 for the table. Theorems: `C35_latest`, `C35_opened`, `C35_any_order`. Result: Goto-definition on a name used in a well-formed expression: C35_latest for every table of definitions, C35_opened for a template just opened. The latest is the one with the greatest start; positions are 32-bit.
* **C36 Cross-file goto-definition is exact** (partial; Goto.lean). Modelled: `goto_definition`, all hash orders. Proof: permutation of `collectFiles`; exact filter. Theorems: `C36_cross_file_partial`, `C36_template_name_refuted`. Result: C36_cross_file_partial: exactly the recorded entries of other files with that first segment, up to order, for every hash order. False as stated: entries that are template references are returned, too (C36_template_name_refuted).
* **C37 Goto-definition never crashes on a workspace entry** (partial; Goto.lean). Modelled: `Url::parse(..).unwrap()`. Proof: totality over all capture streams; refutation for every such entry. Theorems: `C37_not_url_refuted`, `C37_urls_partial`. Result: False: C37_not_url_refuted (an entry under a name that is not a URL, e.g. a link hint). C37_urls_partial: normal termination for every document and position when all entries have URLs.
* **C38 Variable completion is sound and complete** (proved; Complete.lean). Modelled: `read_variables`. Proof: induction over the loop with the set of seen names; history invariant for the kinds. Theorems: `C38_offered`, `C38_no_other`, `C38_kinds_partial`, `C38_start`. Result: C38_offered: the items of the file's own variables are exactly the usable names with the typed prefix, once each; all further items are backend variables (C39). C38_no_other restates that per item for templates without backend variables; C38_kinds_partial and C38_start show this holds throughout every history, except for links to files of another class.
* **C39 Backend variables in completion** (partial; Complete.lean). Modelled: `read_variables`. Proof: membership; refutations for every workspace of the shape. Theorems: `C39_all_partial`, `C39_duplicates_refuted`, `C39_prefix_refuted`. Result: C39_all_partial: every backend variable is offered. False as stated: C39_duplicates_refuted (offered twice when the file has a usable variable of that name), C39_prefix_refuted (typed prefix ignored).
* **C40 Accepting a variable completion inserts the variable** (partial; Complete.lean). Modelled: edits of completion items; specification: LSP edits of `Spec/Text`. Proof: composition of cursor lemmas with text replacement lemmas. Theorems: `C40_replaced_partial`, `C40_vscode_refuted`, `C40_range_refuted`, `C40_attribute_refuted`. Result: C40_replaced_partial: editors other than VS Code, ASCII text before the name, no attribute of the name or the next one following. False otherwise: C40_vscode_refuted (the typed prefix is inserted instead of the name), C40_range_refuted (text up to the attribute of the next name is deleted), C40_attribute_refuted (the first attribute of the name is deleted).
* **C41 Template completion offers the right names** (partial; TemplateItems.lean). Modelled: `read_templates`, `str::split`. Proof: substring lemmas (`Lemmas/Split`). Theorems: `C41_labels_partial`, `C41_twice_refuted`, `C41_trailing_refuted`, `C41_here_refuted`, `C41_accepted_partial`, `C41_vscode_refuted`. Result: C41_labels_partial (name of the directory once in every URI) and C41_accepted_partial (editors other than VS Code). False otherwise: C41_twice_refuted, C41_trailing_refuted (./templates/), C41_here_refuted (.), C41_vscode_refuted (overlapping edits).
* **C42 Template completion is complete** (partial; TemplateItems.lean). Modelled: `read_templates`. Proof: induction over the loop. Theorems: `C42_offered_partial`, `C42_outlier_refuted`. Result: C42_offered_partial. False as stated: C42_outlier_refuted (one selected template outside the configured directory, or a dot in the directory name, and nothing is offered).
* **C43 Hover shows the kind of the visible definition** (partial; Hover.lean, Others.lean). Modelled: `hover`, `data_type`, lsp.rs hover text. Proof: `max` lemma, permutation of `any`, C17 for the name at the cursor. Theorems: `C43_local_partial`, `C43_elsewhere_partial`, `C43_template_name_refuted`, `C43_unrecorded_refuted`, `C43_any_order`. Result: Shown: with a visible definition in the file, hover shows the kind of the one that starts last (C43_local_partial); without, `Backend variable` exactly when another file has an entry whose first segment is the name, for every hash order (C43_elsewhere_partial). False: entries that are template names count as variables (C43_template_name_refuted); in a file nothing was recorded for hover shows nothing (C43_unrecorded_refuted). Covers cursors on the name itself, not on its attributes.
* **C44 Hover over filters and tests shows their own documentation** (partial; Hover.lean). Modelled: the constant tables of names, hover text. Proof: evaluation of the finite tables for uniqueness (they are constants of the program, not samples); C17 for the name at the cursor. Theorems: `C44_one_entry`, `C44_filter`, `C44_test_partial`, `C44_reserved_refuted`. Result: Filters: own entry or nothing (C44_filter); tests other than reserved words likewise (C44_test_partial); one entry per name and the documentation file is the one named after it (C44_one_entry, about the constant tables). False for the documented tests true and false: hovering them shows nothing (C44_reserved_refuted).
* **C45 Document symbols mirror the recorded definitions** (proved; Hover.lean). Modelled: `document_symbols`. Proof: direct. Theorems: `C45_symbols`, `C45_none`. Result: C45_symbols: one symbol per recorded definition in order with name, kind and range (positions below 2^32); C45_none for files without records. That the records are the definitions of the text is C11/C12.
* **C46 Quick fixes match missing-template diagnostics** (partial; Actions.lean). Modelled: diagnostics task, `add_code_actions`, `code_action`. Proof: invariant over message histories that do not analyse the document. Theorems: `C46_inside_partial`, `C46_outside`, `C46_analysed`, `C46_no_directory_refuted`, `C46_window_refuted`. Result: C46_inside_partial and C46_outside: after an analysis result was published and its quick fixes processed, until the document is analysed again (any number of other messages), a request inside a reported missing name offers a template reported there, outside never; C46_analysed links this to opening/saving and publication. False: without the templates directory the list is empty (C46_no_directory_refuted); after a save the quick fixes are forgotten before the new diagnostics are published (C46_window_refuted).
* **C47 The quick fix creates the file whose absence was reported** (partial; Actions.lean). Modelled: `process_code_actions`, timers. Proof: case analysis for every state; task step for the expiry. Theorems: `C47_created`, `C47_scheduled_partial`, `C47_expires`, `C47_not_loaded_refuted`, `C47_asked_refuted`, `C47_empty_refuted`. Result: C47_created: for every state the offered file is the canonical templates directory followed by the components of a name recorded as missing at that position, never an overwrite. C47_scheduled_partial and C47_expires: each answered request schedules exactly one analysis, which saves the document when due. False: nothing is analysed before the workspace was loaded (C47_not_loaded_refuted); requests, not uses, schedule analyses (C47_asked_refuted); for an empty name the file is the directory itself (C47_empty_refuted).
* **C48 Results do not depend on hash iteration order** (proved; Order.lean). Modelled: every hash iteration site is an arbitrary permutation. Proof: relation of results up to permutation, preserved by every message, then by sessions (`Lemmas/Order`). Theorems: `C48_message`, `C48_session`, `C48_published`. Result: Messages, whole sessions and published diagnostics agree for any two hash orders, up to the order inside lists the code builds from hash maps. Assumes every file:/// + path parses as a URL; this only matters for whether a quick fix panics. For overlapping missing names a different one of them may be offered.
* **C49 Requests do not change the workspace** (proved; Order.lean). Modelled: all requests. Proof: case analysis; induction over sessions. Theorems: `C49_request`, `C49_requests`, `C49_invisible`. Result: Query requests change neither the stored state nor what later messages do or publish. Requests that panic are covered by C18 and C37.
* **C50 Reset rebuilds from disk and configuration** (partial; Startup.lean). Modelled: `walkdir`, `Initialized`. Proof: function of configuration and disk; refutation for every unsaved text. Theorems: `C50_function_partial`, `C50_open_text_refuted`, `C50_saved_partial`. Result: C50_function_partial: after a successful (re)initialisation two servers with the same configuration have the same workspace and send the same diagnostics. C50_saved_partial: saved documents in a configured directory keep their text. C50_open_text_refuted: for every document whose editor text differs from the file on disk, the text is lost at the next successful (re)initialisation.
* **C51 Failed initialisation leaves the workspace untouched** (proved; Startup.lean). Modelled: `walkdir` with errors at any entry. Proof: induction over the walk. Theorems: `C51_language`, `C51_walk`, `C51_otherwise`. Result: For every state, configuration and disk: unsupported language or an error at any entry of any walk leaves the server exactly as it was with nothing sent (C51_language, C51_walk); C51_otherwise: these are the only reasons. Assumes that parsing does not fail and that captured texts of a fresh tree are readable, otherwise the walk could panic before reaching the error.
* **C52 Configuration precedence** (proved; Startup.lean). Modelled: `initialize`, `did_change_configuration`, `search_config`. Proof: induction over histories. Theorems: `C52_options`, `C52_project`, `C52_kept`, `C52_in_force`. Result: Options, project files in order, and every later message history. Deserialisation of JSON and TOML is a parameter of the model.
* **C53 Message queues are bounded and never deadlock** (partial; Deadlock.lean). Modelled: the two tasks, bounded channels, client and timers as transition system (`Model/Protocol`). Proof: invariant over `Steps`; exact enabledness analysis; explicit schedules from every idle state. Theorems: `C53_bounded`, `C53_stuck_iff`, `C53_dead_iff`, `C53_progress_partial`, `C53_survivor_partial`, `C53_self_deadlock_refuted`, `C53_mutual_deadlock_refuted`. Result: C53_bounded: capacities hold in every reachable state. Deadlock freedom is false: C53_self_deadlock_refuted and C53_mutual_deadlock_refuted give, from every idle state, schedules after which no task ever takes a step again. C53_stuck_iff and C53_dead_iff characterise exactly when this is so; C53_progress_partial and C53_survivor_partial: progress while the worker's queue has room or when one task has ended.
* **C54 Closing a document keeps it available** (proved; Startup.lean). Modelled: `did_close` at the client interface (`Model/Client`). Proof: induction over sessions. Theorems: `C54_session`, `C54_contributes`. Result: Every session: the final state and all other answers are those of the session without the close notifications; source variables of closed files are still offered.
* **C55 The VS Code flag survives resets** (proved; Startup.lean). Modelled: VS Code flag through all messages, format of items. Proof: induction over histories. Theorems: `C55_history`, `C55_format`, `C55_session`. Result: Flag after every history, format of every completion answer, and both combined for every session.
* **C56 Startup analyses every reachable source file once with the right language** (proved; Startup.lean). Modelled: `walkdir`. Proof: induction over walk entries with exact key sets. Theorems: `C56_documents`, `C56_trees`, `C56_diagnostics`. Result: C56_documents holds without assumptions; C56_trees and C56_diagnostics assume that parsing does not fail and that a regular file reported by the walk keeps its extension when made canonical (links are reported as links).
* **C57 Link hints are stored and removed as a unit** (partial; NodeHints.lean). Modelled: node API calls on hints (`Model/Node`). Proof: induction over call sequences. Theorems: `C57_hints`, `C57_session_partial`, `C57_unit`, `C57_same_name_refuted`. Result: The variables stored under a hint name are exactly those of the latest save since the last removal, for every sequence of node API calls that opens or deletes no document of that name. Missing: a document whose URI equals the hint name (C57_same_name_refuted: opening it replaces the hint).
* **C58 Links are exact dotted-path matches** (partial; NodeLinks.lean). Modelled: `add_one`, `ActionObject` conversions. Proof: equivalence of splitting and joining; C17 for the uses; induction over hints and uses. Theorems: `C58_links_partial`, `C58_filter_refuted`, `C58_python_partial`. Result: Exact: a link per saved temp hint with the same dotted path, at the path's range shifted by the line, for all used names. Missing: the claim's restriction to variables; names of filters and tests are linked too (C58_filter_refuted). C58_python_partial covers the backend entry point.
* **C59 Embedded line offsets translate consistently** (partial; NodeOffsets.lean). Modelled: line shifts on u32 in both profiles. Proof: equality of whole answers for shifted documents, arithmetic. Theorems: `C59_hover`, `C59_complete`, `C59_goto`, `C59_variables`, `C59_above_debug_partial`, `C59_above_release_refuted`. Result: Hover, completion, definitions and variables of a document opened at line k are those of the document opened at line 0, moved by k; a position above the offset panics in debug builds. Missing: release builds, where it wraps around instead of being rejected (C59_above_release_refuted).
* **C60 deleteAll removes everything of a file** (partial; NodeHints.lean). Modelled: `delete_documents_with_id`. Proof: fold over an arbitrary order; membership lemmas. Theorems: `C60_delete_partial`, `C60_backend_tree_refuted`, `C60_hint_refuted`. Result: Documents, template trees and variables whose identifier contains the name are gone and the others untouched. Missing: backend trees, which remain (C60_backend_tree_refuted); variables of a hint whose name contains the file name stay when no document has that name (C60_hint_refuted).
* **C61 Saved hints appear in identifier completion** (partial; NodeComplete.lean). Modelled: `complete`, `get_variable`. Proof: history lemma of C57 composed with `read_variables`. Theorems: `C61_names_partial`, `C61_description_refuted`, `C61_unread_refuted`, `C61_typed_partial`, `C61_typed_refuted`. Result: The names of the hints saved under temp are offered with no typed prefix (C61_names_partial) and, if the file has variables under its bare name, with one (C61_typed_partial). Missing: the description shown is that saved under temp_ (C61_description_refuted), unread documents (C61_unread_refuted), and the other typed case (C61_typed_refuted).
* **C62 Python attribute paths are reassembled** (partial; Python.lean). Modelled: `python_identifiers.rs`. Proof: grouping lemma over streams and orders; induction over attribute paths. Theorems: `C62_groups`, `C62_paths_partial`, `C62_prefix_refuted`, `C62_same_start_refuted`. Result: Exact result of the merge for every list of captures and every hash order (C62_groups); dotted paths with different start positions are reassembled (C62_paths_partial). Missing: expressions that begin with a call or subscript (C62_prefix_refuted) and two that start at the same place (C62_same_start_refuted).
* **C63 Cloned workspaces behave the same** (partial; Clone.lean). Modelled: `impl Clone for LspFiles`. Proof: equality of all query functions; commutation of updates with cloning. Theorems: `C63_queries_partial`, `C63_navigation_partial`, `C63_updates_partial`, `C63_python_refuted`. Result: All queries agree that do not use the backend grammar, all completions and definitions in templates and in Rust workspaces, and updates of Rust workspaces commute with cloning. Missing: backend files of Python workspaces, since the clone has Rust parsers and queries (C63_python_refuted).
* **C64 Exact scope rule for arbitrary tag sequences** (proved; Definitions.lean). Modelled: as C11, arbitrary tag sequences. Proof: simulation of the scope stack by bracket matching. Theorems: `C64_bracket_matching`. Result: Same capture-order assumption as C11.
* **C65 Diagnostics are published in the order of the analyses** (proved; Trace.lean, Words.lean). Modelled: the two tasks with their bounded queues as a transition system (Model/Protocol.lean), annotated with the results analysed so far. Proof: invariant over executions (induction), C34_faithful for each published result; the last list by filtering the invariant for a name; positions: invariant of the recorded names and of each analysis (Words.lean), then induction over executions. Theorems: `C65_in_order`, `C65_ended`, `C65_last_shown`, `C65_positions`, `C65_small`, `C65_words`. Result: C65_in_order, C65_last_shown: while the diagnostics task lives; C65_ended: also when it has ended (it ends at a file name that is not a URL), nothing else has been published. Proviso: positions of the reports are below 2^32 (otherwise they are truncated, C34); C65_small shows that this holds in every execution if the positions the parser reports are (tree-sitter's TSPoint is 32-bit; C65_words is C65_in_order with that assumption alone), so the hypothesis SmallResults here and in C69, C82, C85, C97, C123 is a fact about tree-sitter only. C65_positions: whatever holds of 0:0 and of all positions the parser reports holds of all reported positions. For the last list: names of files are URLs in normal form
* **C66 Concurrency is invisible: every execution is a sequential run** (proved; Trace.lean). Modelled: the same transition system, annotated with the messages the client sent. Proof: refinement: simulation of the concurrent system by the sequential run, by induction over executions. Theorems: `C66_executions`, `C66_sequential`. Result: the states may differ in delays that have already expired; the message of an expired delay is an internal didSave
* **C67 Only a change out of bounds can end a task** (proved; Survival.lean). Modelled: the whole transition system of C65/C66, with worlds restricted to orderly file systems; what tree-sitter and the url crate guarantee is the hypothesis `Spec.Sound`. Proof: invariant over executions (`AllWell`): every message is processed without panic unless it is an out-of-bounds change; case analysis over all messages, release arithmetic total. Theorems: `C67_survives`, `C67_reading`, `C67_doomed`. Result: Assumptions on tree-sitter, the url crate and the file system are explicit hypotheses (`Spec.Sound`, `Spec.Orderly`).
* **C68 A session of plain edits never ends the server and keeps it in step** (proved; InStep.lean). Modelled: the same system beside an editor that applies LSP edits to its own texts (`Spec.EditStep`). Proof: invariant over executions (`Following`): server texts = texts shown earlier, queue = the steps in between; uses C01 for batches and C56 for initialisation. Theorems: `C68_in_step`, `C68_reread_refuted`, `C68_reset_refuted`. Result: Sessions without re-initialisation. `C68_reset_refuted` and `C68_reread_refuted` show that the claim fails with one.
* **C69 When typing has stopped and nothing is left to do, the list shown is that of the current text** (proved; Quiet.lean). Modelled: the system of C68 with the delayed re-analyses (timers) and what the diagnostics task has published. Proof: invariant over executions (`Stage`): either a re-analysis of the current text is still to come (timer, queued save, result in flight) or the last list published for the name is that of the current text; combined with C68 and C65; the exact list by C25 and C28. Theorems: `C69_shown`, `C69_wellnested`, `C69_unloaded_refuted`. Result: For the document changed last, in a loaded workspace (`C69_shown`; the exact list for well-nested templates is `C69_wellnested`). `C69_unloaded_refuted`: false before the workspace was loaded. For documents changed earlier see `C07_lost_reanalysis`.
* **C70 Symbols follow from the syntax tree** (proved; Syntax.lean). Modelled: the queries of queries.rs interpreted over syntax trees (`Model/Queries`: kinds, fields, predicates, order of reports); specification `Spec/Syntax`: how a reader reads the nodes as tags. Proof: the walk over a readable tree reports the stream of its tags (`Lemmas/Queries`, induction over the reading); then C64 and C11; ids and texts from `WellFormed`. Theorems: `C70_symbols`. Result: For every syntax tree that reads as a sequence of tags (`Spec.Tags`). That tree-sitter's grammar yields such a tree for a text is not modelled.
* **C71 Diagnostics follow from the syntax tree** (proved; Syntax.lean). Modelled: as C70, with the queries for uses and references. Proof: the same for OBJECTS and JINJA_IMPORTS; then C25 and C28 through `analyses_records`. Theorems: `C71_diagnostics`. Result: For syntax trees that read as tags, uses and references, when globals are not ignored; uses in order, references up to order.
* **C72 A template is analysed if and only if its syntax tree has no error node** (proved; Syntax.lean). Modelled: JINJA_SNIPPETS over arbitrary syntax trees. Proof: every error node is reported by the entering or the leaving visit (`errorBlock_iff`, induction over trees). Theorems: `C72_analysed_iff`. Result: Both directions, for all syntax trees; nothing is assumed about their shape.
* **C73 A number is never a name** (proved; Syntax.lean). Modelled: DEFINITIONS and OBJECTS over arbitrary syntax trees. Proof: every reported capture is a node meeting its predicate; C14 and `JinjaObjects.from_query` say that names come from captures. Theorems: `C73_symbols`, `C73_uses`. Result: For all syntax trees; what counts as a digit is a parameter (the regular expression's `\d`).
* **C74 Exactly which names a Rust file declares** (proved; BackendSyntax.lean, Passed.lean). Modelled: RUST_DEFINITIONS over arbitrary syntax trees, then `rust_identifiers.rs`. Proof: the walk visits every place of the tree exactly (`mem_walk`); the reports at a place are compared with the specification; C22. Theorems: `C74_rust_exact`, `C74_session`. Result: Exact, for all syntax trees without error nodes whose texts are readable. `C74_session`: at every point of every session, for files whose changes were saved.
* **C75 A Rust file declares the keys of context! and the registered names, nothing else** (partial; BackendSyntax.lean). Modelled: as C74. Proof: from C74. Theorems: `C75_keys_partial`, `C75_other_macro_refuted`, `C75_value_refuted`. Result: `C75_keys_partial`: nothing is missing. The converse is false: identifiers in any other macro (`C75_other_macro_refuted`) and values in context! (`C75_value_refuted`) are recorded too. C74 says exactly what is.
* **C76 Exactly which names a Python file declares** (proved; BackendSyntax.lean, Passed.lean). Modelled: PYTHON_DEFINITIONS over arbitrary syntax trees. Proof: as C74. Theorems: `C76_python_exact`, `C76_session`. Result: Exact, for all syntax trees without error nodes whose texts are readable. `C76_session`: at every point of every session.
* **C77 A Python file declares what it passes to templates and puts into the tables of jinja_env, nothing else** (partial; BackendSyntax.lean). Modelled: as C76. Proof: from C76. Theorems: `C77_plain_partial`, `C77_receiver_refuted`, `C77_foreign_table_refuted`. Result: `C77_plain_partial`: calls on plain names and the tables of jinja_env are recorded. False in both directions: calls on longer receivers are missed (`C77_receiver_refuted`), tables of unrelated dotted objects are recorded (`C77_foreign_table_refuted`). C76 says exactly what is.
* **C78 Exactly which templates a backend file refers to** (proved; BackendSyntax.lean, Passed.lean). Modelled: RUST_TEMPLATES and PYTHON_TEMPLATES over arbitrary syntax trees, then `rust_template_completion.rs`. Proof: each call contributes a method name followed by strings, of which the first is kept (`callArgs_matches`); C23. Theorems: `C78_rust`, `C78_python`, `C78_session_rust`, `C78_session_python`. Result: `C78_rust` and `C78_python`; in Python a plain name anywhere in a dotted callee counts. `C78_session_rust`, `C78_session_python`: at every point of every session.
* **C79 An answer is about the texts shown when asking** (partial; Answers.lean). Modelled: the system of C68 with answers; every queued message carries the texts shown when it was sent (`Spec.Session`). Proof: invariant over sessions (`session_pending`): the server holds the texts that go with the first message of the queue; every execution is a session (C79_session, by C68). Theorems: `C79_order`, `C79_text`, `C79_session`, `C79_filter`, `C79_outdated_refuted`, `C79_symbols_refuted`. Result: texts, syntax trees and order proved for all executions (C79_session, C79_order, C79_text; for filters the whole answer, C79_filter). Refuted for definitions: no change has any effect on the recorded definitions until the next analysis (C79_outdated_refuted), so an emptied document still has symbols (C79_symbols_refuted)
* **C80 What is announced is served, what is needed is announced** (partial; Capabilities.lean). Modelled: the answer to `initialize` (`Model/Capabilities`), the calls of the client (`Model/Client`); specification `Spec.Allows`: the rules of the protocol. Proof: case analysis over calls; C67 for the absence of panics; invariant `Unheard` over runs, with C56's induction over the files read at startup. Theorems: `C80_announced_partial`, `C80_served_partial`, `C80_never_opened_refuted`, `C80_warn_refuted`, `C80_will_save_refuted`, `C80_context_refuted`. Result: what is allowed reaches the worker and is answered with its kind (C80_announced_partial, C80_served_partial). Refuted: openClose is not announced, so for a conforming client a document that is not on disk is never known (C80_never_opened_refuted); the command warn does nothing (C80_warn_refuted); willSave is announced and ignored (C80_will_save_refuted); completion without context is never answered (C80_context_refuted)
* **C81 Re-used syntax trees stand for the text** (partial; Honest.lean). Modelled: trees carry the text, grammar and old tree they were made from and the edits they were told (`Tree`); specification `Spec.Honest`, `Spec.TrueEdit`; `Spec.Faithful` is the promise of incremental parsing (hypothesis about the environment). Proof: invariant over histories (`told_run`); induction over the changes of a notification (C04); congruence of every handler in the answers of the parser on honest trees (`handle_scratch`). Theorems: `C81_regions_partial`, `C81_points_partial`, `C81_unobservable_partial`, `C81_reopened_refuted`, `C81_append_refuted`, `C81_observable_refuted`. Result: proved for histories in which documents are opened with the held text, if any, and changes are between plain positions: regions are told truly (C81_regions_partial); if the columns at which the inserted text ends exist before, so are all points (C81_points_partial), and then re-use is unobservable (C81_unobservable_partial). Refuted: opening a held document with another text re-uses the tree of the old text (C81_reopened_refuted, seen from outside: C81_observable_refuted); every appended text is told to end where it begins (C81_append_refuted)
* **C82 What the editor shows at rest follows from the syntax tree of the text in it** (proved; Displayed.lean). Modelled: as for C69 and C71: the two tasks and their queues, the queries interpreted over syntax trees (`Env.over`). Proof: composition of the stage invariant of C69 (`quiet_current`) with the bracket matching of C64 and the exact reports of C71 (`quiet_saved`). Theorems: `C82_displayed`, `C82_outline`. Result: For the document changed last, a template, in a loaded workspace, when globals are not ignored (`C82_displayed`); the symbols: `C82_outline`. Uses in order, references up to order.
* **C83 Goto-definition and hover follow from the syntax tree** (proved; Lookup.lean). Modelled: queries interpreted over syntax trees (`Env.over`), `gotoDefinition`, `hover`; specification `Spec.Tags`, `Spec.ReadsTree`, `Items.bindings`. Proof: from the reading of the tree to the captures around the cursor (`readsOff_split`, `onUse_tree`), then C64, C35, C36, C43, C44; at rest by the stage invariant of C69. Theorems: `C83_analysed`, `C83_rest`, `C83_goto`, `C83_goto_elsewhere`, `C83_hover`, `C83_hover_elsewhere`, `C83_hover_documented`. Result: `C83_analysed`, `C83_rest`: when a template counts as analysed. `C83_goto`, `C83_goto_elsewhere`, `C83_hover`, `C83_hover_elsewhere`, `C83_hover_documented`: the answers, for trees whose nodes are in document order (`Spec.Laid`) and cursors inside the name (not behind its last character). Tests named `true` or `false` are reserved words and not uses (C44).
* **C84 Names of templates lead to their files, in terms of the syntax tree** (proved; Named.lean). Modelled: queries interpreted over syntax trees (`Env.over`), `gotoDefinition`, `templateLocation`; specification `Spec.Refs`. Proof: from the statements of the tree to the captures around the cursor (`refs_split`, `onName_tree`); no name or operator reaches into a string (`string_quiet`); at rest by `quiet_saved` and C28. Theorems: `C84_goto`, `C84_goto_missing`, `C84_rest`. Result: `C84_goto`, `C84_goto_missing`: the answers, for trees whose nodes are in document order (`Spec.Laid`) and names without quotes inside (otherwise false, C21). `C84_rest`: with what is shown at rest; for names that start with a slash it is false (C30). The first dotted segment of `./x.html` is empty, so a missing name can lead to a string of a backend file.
* **C85 Once typing has stopped, quick fixes are offered exactly where missing templates are shown** (proved; Fixes.lean). Modelled: both tasks and their queues, `codeAction`, `processCodeActions`, `addCodeActions`. Proof: stage invariant of C69 extended by the way of the quick fixes of the last result (`FixesOf`): computed, sent, recorded. Theorems: `C85_offered`, `C85_tree`. Result: `C85_offered`, `C85_tree`; the templates directory must exist when the fix is requested and paths below it must be URLs (otherwise nothing is offered, C46), the workspace must have been loaded. Before everything is processed the fixes may be missing (`C46_window_refuted`).
* **C86 What completion offers, in terms of the syntax tree** (proved; Offered.lean). Modelled: `completion`, `objectsQuery`, `snippetsQuery`, `templatesQuery`, the queries over syntax trees, `completionItems`. Proof: the captures up to the cursor determine the last pipe, expression, name and `is` (`feeds_pipe`, `feeds_expr`, `feeds_test`); nodes are disjoint or nested (`apart`); composed with C24, C38, C41. Theorems: `C86_snippets`, `C86_filters`, `C86_names`, `C86_tests`, `C86_nothing`, `C86_templates`, `C86_typed`. Result: `C86_snippets`, `C86_filters`, `C86_names`, `C86_typed`, `C86_tests`, `C86_templates`, `C86_nothing`. Observed on the way: tests are never offered inside `{{ }}` (names are), typing a filter offers variables, snippets are never offered in a second error. The tree must be regular (`Regular`: order and nesting of nodes as tree-sitter produces them, no errors).
* **C87 Left alone, the server comes to rest and has answered everything** (proved; Settle.lean). Modelled: the worker, the diagnostics task, both bounded queues and the delayed tasks as in C53, C65, C66; a world (file system) exists to process messages in. Proof: a measure on states that every step decreases (`handle_load`, `alone_load`), the number under way that no step increases, `C53_stuck_iff` for the end; well-founded induction with C68, C69 and C79 at the end. Theorems: `C87_bounded`, `C87_no_deadlock`, `C87_end`, `C87_eventually`, `C87_settles`, `C87_shown`, `C87_answered`, `C87_exact`, `C87_polite`. Result: `C87_bounded` (a), `C87_end` (b), `C87_no_deadlock`, `C87_exact`, `C87_polite` (c), `C87_eventually`, `C87_settles` (d), `C87_answered` (e), `C87_shown` (f). No fairness is assumed: there are no infinite runs without the client. `Spec.Eventually` is inevitability: `P` now, or some step is possible and `P` is inevitable after every step. That a delay is over eventually, and that a task that can take a step is run, is what tokio must provide.
* **C88 How old the shown diagnostics of a document can be** (proved; Stale.lean). Modelled: sessions as in C79; saves by the client and by expired delays are the same message. Proof: the history of processed messages with the texts shown when each was sent (`session_history`), an interleaving is cut at the save (`Merge.find`, `Merge.cut`), the last processed message with a result for the document is an open or a save of it (`analysis_of`), publication in order (`last_shown_raw`). Theorems: `C88_since`, `C88_saved`, `C88_earlier_refuted`, `C88_elsewhere_refuted`. Result: `C88_since` (a), `C88_saved` (b), `C88_earlier_refuted` (c), `C88_elsewhere_refuted` (d). Only the list in question has to be small enough for 32 bits (`Small ds`), not all results as in C69. For the document changed last see C69.
* **C89 What is answered follows from the texts, not from the history** (proved; History.lean). Modelled: the worker with two different histories; iteration orders of hash tables may differ as in C48. Proof: invariant over runs: the tree of every held document is that of its text and the recorded definitions are those of the tree unless the document was changed since it was last analysed (`Kept`, `kept_run`); equal texts then give states with equal look-ups (`Alike.of_kept`), which is a bisimulation (`AlikeServers.handle`); for executions the merged history of C66 is saved when the client's is (`merge_change`). Theorems: `C89_future`, `C89_as_new`, `C89_executions`, `C89_error_refuted`, `C89_unsaved_refuted`. Result: `C89_future` (any two histories), `C89_as_new` (same start, settings unchanged since), `C89_executions` (interleaved executions), `C89_error_refuted` (a), `C89_unsaved_refuted` (b). Assumed of tree-sitter: a parse with an old tree cannot be told from one without (`Stateless`), parsing does not fail; of the world: canonicalisation keeps the class of a file. Changes carry ranges (whole-document changes: C02). Quick fix requests are left out, since the recorded missing templates arrive with a delay (C86).
* **C90 Which dotted names are read from a Python file** (proved; PythonSyntax.lean). Modelled: the query PYTHON_IDENTIFIERS on syntax trees and the grouping by the start of the parent; the captures of errors carry their parents, too. Proof: the walk of the tree reports the pairs of parents and children (`walk_py`), so that the groups of C62 are those of the pairs (`below_py`); dotted names by induction on their length (`DottedName.parts`). Theorems: `C90_exact`, `C90_dotted`, `C90_none`, `C90_call_refuted`, `C90_error_refuted`. Result: `C90_exact` (all trees), `C90_dotted` (dotted names of any length), `C90_none`, `C90_call_refuted` (a), `C90_error_refuted` (b). The shape of attribute nodes of the Python grammar (`DottedName`: object, dot, name) is assumed of tree-sitter-python, as is that matches are reported in document order of the captured nodes.
* **C91 The number basic() of the Node API returns** (proved; NodeBasic.lean). Modelled: `basic` with fresh parsers and queries; the conversion of the length to i32 wraps. Proof: the objects query over well-formed expressions (C19, C71); at most one object for every captured name (`check_length`, `feed_length`); the loop ends at an error (`feed_append_error`). Theorems: `C91_total`, `C91_uses`, `C91_error_refuted`, `C91_at_most`. Result: `C91_total`, `C91_uses`, `C91_at_most`, `C91_error_refuted` (what comes after the first error does not count)
* **C92 Only the order of places and the identity of names matter** (proved; Recast.lean). Modelled: The queries over syntax trees (Model/Queries.lean), the loops of definition.rs, objects.rs and templates.rs, search_errors. A rewriting is given by three functions on names, places and node ids (Spec/Recast.lean); the rewritten tree corresponds to the first node by node; the texts of composed nodes are arbitrary.. Proof: The three queries report corresponding captures in corresponding trees (induction over the tree). For each of the three loops a relation between the states is kept by every step: recorded positions are moved or both are the default. Verdicts depend only on order and equality.. Theorems: `C92_reports`, `C92_references`, `C92_symbols`, `C92_renamed`, `C92_inserted`. Result: C92_reports (uses, in order), C92_references (missing templates, up to the order of the hash map), C92_symbols; C92_renamed and C92_inserted are the two common cases. Names stand behind a delimiter, so they are not at the very beginning of the file; a moved beginning needs that no recorded scope ends at the very beginning, since the code reads the position (0, 0) as 'global'.
* **C93 Accepting a snippet completes the statement** (partial; Snippet.lean). Modelled: The table of snippets, the range `character + 1`, the removal of the edit for VS Code, `insert_text_format` left at its default; the snippet syntax of the protocol (`$n`, `${n:default}`, one digit), the statements of a text, blocks and the application of edits are specified independently of the code.. Proof: Each snippet of the (finite, complete) table is one statement with symbolic contents followed by a literal rest; the scan of statements skips everything without `%`. The edit: the UTF-16 columns of the cursor are those of its line, one further column is one character unless the line ends or the character takes two units.. Theorems: `C93_statements`, `C93_inserted_partial`, `C93_next_character_refuted`, `C93_literal_refuted`, `C93_vscode_refuted`. Result: The texts are complete statements for every harmless filling (C93_statements), and outside VS Code, at the end of a line, accepting inserts exactly the text (C93_inserted_partial). False otherwise: the character behind the cursor is deleted (C93_next_character_refuted), the items are not declared as snippets so that the marks of the places are inserted literally (C93_literal_refuted), and in VS Code the items have no text at all, only their label is inserted (C93_vscode_refuted).
* **C94 Hover in an embedded template** (partial; NodeHover.lean). Modelled: `hover` of the Node API with its subtraction and addition of the line, the list of hints told under a name folded over the calls; the definition the kind comes from is described as in C43. Proof: The hints in the state are those a fold over the calls predicts, by induction on the calls; the query result at the cursor comes from the specification of uses (C43/C44), the data type from the definitions in scope. Theorems: `C94_hint_partial`, `C94_kind`, `C94_filter`, `C94_longer_refuted`, `C94_unknown_refuted`, `C94_test_refuted`. Result: Proved for names that have a definition: a hint of exactly this name that no hint of a longer name precedes (C94_hint_partial), the kind when no hint begins with the name (C94_kind), and filters (C94_filter). False otherwise: the first hint whose name begins with the name under the cursor is shown (C94_longer_refuted), names without a definition show nothing even if a hint was told (C94_unknown_refuted), and tests never show their documentation (C94_test_refuted).
* **C95 Inside an expression help is available at every position** (partial; Before.lean). Modelled: `in_expr` with its condition on the identifier and on empty braces, `completion` and `code_action`; positions relative to the nodes of an arbitrary tree without errors, as in C86; the recorded missing templates of the document. Proof: The state of the analysis with the cursor on a name (as for C20/C43) has the name's range as its identifier and the surrounding expression, so that `in_expr` is exactly `start < cursor`; a pending `is` could only come from captures behind the cursor (induction over the loop). Theorems: `C95_commands_beside`, `C95_commands_partial`, `C95_commands_refuted`, `C95_filters`, `C95_names_refuted`. Result: Proved: the commands beside names, exactly inside {{ }} (C95_commands_beside), and in a name after its first character (C95_commands_partial); filters directly before the name of a filter (C95_filters); names elsewhere are C86. False directly before any other name: neither names (C95_names_refuted) nor commands (C95_commands_refuted) are offered there.
* **C96 Work on other documents changes nothing about a document but the names it takes from them** (proved; Others.lean). Modelled: the whole worker: every message, with the messages sorted into those that concern the document (its own notifications, initialize/initialized/configuration, quick-fix lists that mention it) and the rest; the answers to all requests; the lists sent for publication. Proof: Unwinding: a relation between two servers (equal entries of the document, equal settings) is kept by every message of the rest on either side (frame lemmas) and by every shared message on both sides; induction over the first session, seeking the next shared message in the second. Answers and reports are then functions of related states; the reports are compared one by one and up to the hash order (C48). Theorems: `C96_state`, `C96_answers`, `C96_reports`. Result: The two sessions must not panic (a panic caused by another document ends the worker, see C08/C31); the messages they share are processed with the same disk and hash order. Requests whose answers are compared are answered in both sessions; opening and saving succeeds in one iff in the other.
* **C97 Diagnostics, goto-definition and hover agree about a name** (partial; Agreement.lean). Modelled: the analysis of a document with its three verdicts, goto-definition with local and cross-file lookup, hover with data_type. Proof: For a definition that does not touch the name the three visibility conditions (start/end/scope, each different in the code) are shown equivalent to one: the definition ends before the name and its scope reaches its end. Goto and hover take the maximum of equal sets under a total order (Lemmas/Total), so they choose the same definition. Other files: the names known elsewhere are compared with the first-segment matches. Four refutations with concrete sessions. Theorems: `C97_agreement_partial`, `C97_block_refuted`, `C97_target_refuted`, `C97_both_refuted`, `C97_dotted_refuted`. Result: Proved for names whose definitions in the file are no blocks and do not touch the name, and that are not both defined in the file and known elsewhere, with undotted entries elsewhere. Refuted for the rest: a block's name is reported although goto leads to the block; the target of a definition is not reported but hover shows nothing there; a name defined out of scope here and known elsewhere is reported as undefined although goto and hover find the other file; the first segment of a dotted entry elsewhere is reported as undefined although goto and hover find it.
* **C98 Saving again changes nothing** (proved; Again.lean). Modelled: didOpen and didSave with deleteVariables, addVariables and readTree, and every other message in between. Proof: The result of an analysis is a fixed point of analysing again (deleting the definitions and running the queries on the same tree and text gives the same definitions, including the cases where a query fails); this is kept by every message that leaves the document, by induction over the session with the frame lemmas of C96; the reports are compared with the readTree lemmas of C96 and C48. Theorems: `C98_again`, `C98_same_reports`. Result: The files on disk are the same at both analyses (empty template names and unknown templates are checked against the disk). 'initialized' is excluded because it resets the workspace. A first opening whose tree cannot be read sends nothing where a save sends an empty list; the statement counts both as no reports. The stored quick fixes are not part of the claim.
* **C99 Completion and diagnostics agree about a name** (partial; Offers.lean). Modelled: the analysis of a document with its verdicts, the classification of the cursor position for completion, the lists of the document's and of the backend files' variables that completion returns. Proof: For a definition that does not touch the name the visibility conditions of completion (start and scope at the cursor) and of the diagnostics (start, end and scope at the name) are shown equivalent; C20 gives the kind of completion, C38 the items, reported_iff (C97) the reports. One refutation with a concrete session. Theorems: `C99_offered_partial`, `C99_both_refuted`. Result: Proved for names whose definitions in the document are blocks or do not touch the name; the second half for names the document defines nowhere (except as blocks). Refuted for the rest of the second half: a name that the document defines where it is not visible and a backend file defines, too, is offered as a backend variable but reported as undefined.
* **C100 Settings are read exactly as documented** (proved; Settings.lean). Modelled: the derived Deserialize of JinjaConfig (visit_map with duplicate, unknown and missing fields; visit_seq), ExternalConfig, and the two messages that carry settings (Model/Config). Proof: induction over the members of the table: the fields read are the decoded values of the four keys (readAll_eq); composed with C52 for the server. Theorems: `C100_accepted`, `C100_list`, `C100_nothing_else`, `C100_same`, `C100_initialize`, `C100_changed`, `C100_missing`, `C100_wrapped`, `C100_project`. Result: Lists are modelled for JSON only (a TOML section that is a list is outside the model).
* **C101 A project's configuration file is honoured** (partial; Settings.lean). Modelled: the initialization options the plugin sends: the user's settings and the plugin's defaults (Model/Config). Proof: the options are always of the documented form (C100), so they win (C52); concrete project with other directories as example. Theorems: `C101_plugin_refuted`, `C101_unset_partial`. Result: True for clients that send no settings (C101_unset_partial). False for the plugin for Visual Studio Code of this repository: it fills in defaults and always sends complete settings, so the project files are never considered, for all well-typed user settings (C101_plugin_refuted).
* **C102 Goto-definition in an embedded template leads to the definition** (partial; NodeGoto.lean). Modelled: `NodeFiles.gotoDefinition` and `shiftLocations` (lib.rs:470-519) on top of `LspFiles.gotoDefinition`, `Url::parse` as an oracle; sequences of calls of the Node API. Proof: The use under the cursor is found by the walk over the captures (`OnUse`), what it leads to is C35_latest for names of the template and `goto_elsewhere`/`collectFiles_ok`/`collectFiles_err` for others; `shiftLocations_mem` (induction on the list of places) says which places are kept and where they are moved; `temp_variables` (induction on the calls) gives the entries of the hints. Theorems: `C102_local_partial`, `C102_filename_refuted`, `C102_encoded_refuted`, `C102_hint_refuted`, `C102_elsewhere_partial`, `C102_others_refuted`, `C102_templates_refuted`. Result: false in general: a host file name that is not a URL makes the call panic (C102_filename_refuted), one that is written differently in a URL yields nothing (C102_encoded_refuted), hints under the default name make the call panic (C102_hint_refuted), definitions of other templates are only found if their names contain temp (C102_others_refuted) and then at the wrong line (C102_templates_refuted). Proved: the answer for names the template defines, when the file name is a URL that occurs in the name of the document (C102_local_partial), and exactly which places are returned for the other names (C102_elsewhere_partial)
* **C103 Embedded templates do not disturb one another** (partial; NodeDocs.lean). Modelled: all calls of the Node API as a sequence (`Call.run`), `getVariables`, `hover`, `gotoDefinition`. Proof: Induction on the calls: one that is not about a document leaves its text, tree, definitions and actions as they are (`leaves_step`, `leaves_run`; for deleteAll by C60_delete_partial, for addOne by the frame of did_open), and calls that say nothing under a name leave the hints of that name (`noHints_run`, from `actions_told`). The list then follows from C11_scopes, the answers from the fact that for names of the template only what is recorded for the template is looked at (`dataType_same`, `localDefinition_some`). Theorems: `C103_listed`, `C103_goto`, `C103_hover`, `C103_complete`, `C103_others_refuted`, `C103_delete_refuted`. Result: false in general: a name the template does not define becomes a backend variable as soon as another template defines it (C103_others_refuted), and deleting another file deletes the template if the name of that file is part of the name of the template's document (C103_delete_refuted). Proved: the list (C103_listed), goto-definition for names the template defines (C103_goto), hover for these and for filters (C103_hover), and what completion offers up to names that backend files pass to templates (C103_complete), after all calls about other documents, where a file to be deleted counts as other if its name is no part of that of the document
* **C104 A syntax tree is only read together with its own text** (partial; Reading.lean). Modelled: all messages and tasks, all calls of the Node API; a tree records the text it was made from, a query is an arbitrary function of tree and text. Proof: Two libraries that agree on own texts (`AlikeOnOwnText`) are followed through every function that evaluates a query (`..._alike`). The invariant: the tree of each held document was made from its text (C03) and is filed under its class (`Classed`), for the process by C66_sequential, for the Node API by induction on the calls. Refutation: a library that finds an unreadable keyword in foreign texts (`unreadable`). Theorems: `C104_own_text_partial`, `C104_process_partial`, `C104_stale_refuted`, `C104_node`. Result: false with a range-less change after another change in one notification: the text is then newer than the tree, the next save reads the old tree with the new text and can end the worker (C104_stale_refuted). Proved for all histories without range-less changes (C104_own_text_partial), for all interleavings of the tasks (C104_process_partial) and for all calls of the Node API (C104_node), if parsing does not fail and links keep the class of a file
* **C105 Completion, hover and the outline describe a name alike** (partial; Kinds.lean). Modelled: the construction of completion items (`LspFiles.variableItems`, `backendItem`), the tables `completion_detail`, `completion_kind` and `symbol_kind`, hover and documentSymbol of the server. Proof: induction over the loop with the set of names already seen: an item comes from the first visible variable of its name (`variableItems_first`); on a use that no definition touches, visible for completion and for hover are the same; hover takes the definition that starts last (C43). Theorems: `C105_described`, `C105_agree_partial`, `C105_shadowed_refuted`. Result: false for names with definitions of several kinds that count at the use: completion describes the first one, hover the last one (C105_shadowed_refuted). Proved: which definition an item describes and how, and that items of other files are marked (C105_described); the agreement of completion, hover and outline whenever the definitions that count are of one kind (C105_agree_partial)
* **C106 Concurrent handlers answer as a sequential server would** (proved; Handlers.lean). Modelled: the handlers of backend.rs with their phases (sending, waiting for the answer, done), started in order, at most `lim` at a time, together with the process of the other properties (`FrontStep`); the queue carries for each message the call it comes from, which stands for the oneshot sender in the message; dropping the queue drops the senders. Proof: One invariant of all steps (`FrontInv`): the numbers of the calls in the queue increase, handlers that still send have larger numbers than all messages sent, waiting handlers have their number in the queue, and the state of the worker is that of the sequential run over the messages processed (`handle_sameUpToExpiry`). Increasing lists with the same members are equal (`sorted_unique`), which gives the list of messages. Theorems: `C106_order`, `C106_execution`, `C106_answer`, `C106_sequential`, `C106_once`, `C106_waiting`. Result: C106_order, C106_execution: what the handlers do is an execution as in C65-C104, with the messages in the order of the calls. C106_answer, C106_sequential: the answers. C106_once, C106_waiting: none twice, none lost. Assumes that calls are started in the order of arrival and that senders get room in the queue in the order in which they began to wait
* **C107 Every call gets its answer** (partial; Served.lean). Modelled: as for C106; `Serving` are the steps without new calls and without cancellations, `Leads` says that every sequence of such steps comes to the state described (and none ends before). Proof: A weight of the state falls with every step (`serving_load`: that of C87 plus 2 for a waiting handler, 1 for a finished one and 3 more than the weight of its message for a sending one), while messages under way and to be sent do not become more. If a handler still runs, there is a step (`served`): it can be answered, or send, or the worker is not blocked, since at most 50 messages are under way (`worker_goes_on`, from the analysis of C87). `C106_once` says that without handlers all calls are answered. The refutation builds the run (`notify`, `flood`) and uses `C87_end` for the end. Theorems: `C107_bounded`, `C107_answered_partial`, `C107_flood_refuted`. Result: C107_answered_partial: every schedule leads to a state without handlers in which every call not cancelled before is answered, provided at most 50 messages are under way or waiting to be sent. C107_bounded: how many steps there can be at most (7 per message under way, 10 per handler), without that provision. C107_flood_refuted: a reset, 50 notifications and a hover request in one particular order; nothing happens any more, and the request is never answered. Missing: the general claim, which is false
* **C108 On an attribute, hover and goto-definition are about the variable** (partial; Attributes.lean). Modelled: as for C83: the template is a syntax tree, read as a list of elements (`ReadsTree`), and the queries of the model are answered from it; positions are 32-bit numbers as in tree-sitter (`SmallPoint`). The refutation assumes that no recorded name is empty or begins with a dot, since the server looks for the empty name in other files then. Proof: `onAttr_tree` brings the captures into the form before the cursor, the use up to the attribute, after the cursor. The loop over the first two parts is `loop_before` of C83; `found_continued` is an induction over the captures after the cursor with the invariant that the object under the cursor stays the last one or last but one and its fields only grow (`check_fields`), so that the cursor stays within its full range; `found_finish` says what happens at the end, including the reset of the range of the identifier to that of the name. Theorems: `C108_hover`, `C108_goto_partial`, `C108_goto_refuted`. Result: C108_hover: hover on an attribute equals hover on the name, without exception. C108_goto_partial: goto-definition finds the binding if, skipping one capture, no name comes before the next expression. C108_goto_refuted: otherwise it answers with an empty list; `follows_attr`, `follows_filter` and `follows_operand` show that this includes another attribute, a filter and an operand. Missing: goto-definition in those cases, where the claim is false
* **C109 A file is one document** (partial; OneFile.lean). Modelled: `read_file` as for C56 (documents are filed under `file://` and the canonical path); URIs of clients are described by `NamesFile`: the path with every character that RFC 3986 does not allow in a path replaced by `%XX` for its UTF-8 bytes, characters that are allowed but reserved replaced or not; `ByUri` are messages whose URIs are of this form, other than `initialized`. Proof: A URI contains only allowed characters and % (`escaped_chars`, induction), so no client message is about the document of a path with another character; every message leaves all other documents alone (`byUri_step`, from the frame lemmas of C09), hence every session does (`byUri_run`). The report follows from the exactness of the reports (C25, `report_unbound`). Escaping makes longer (`escaped_length`), so no URI of a path with % is `file://` and the path. Theorems: `C109_one_partial`, `C109_two_refuted`, `C109_report_refuted`, `C109_other_refuted`. Result: C109_one_partial: plain paths. C109_two_refuted: a character that has to be escaped (a blank, a letter outside ASCII), and the file is two documents after any session; C109_report_refuted: a name defined only in the text that was on disk is reported as defined in another file for ever; C109_other_refuted: opening `my page.html` replaces the text of a file called `my%20page.html`. Missing: the general claim, which is false
* **C110 Templates that completion offers are there** (partial; OfferedFiles.lean). Modelled: completion of template names as for C41, reading of the workspace as for C56, missing templates as for C28; `OnDisk` says that the URI is file:// and a canonical path, `AboutDisk` are messages about such URIs (other than `initialized`), `Coherent` says that what lies below the canonical templates directory is found there through the configured one. Proof: Invariant: every known template is on disk. It holds after the walk (`initialized_known`, by the invariant rule for walks) and is kept by every message about files on disk (`aboutDisk_step`, frame lemmas; `aboutDisk_run`, induction on the session). Labels are those of C41, texts after accepting those of C41_accepted_partial; missing reports are exactly the references that do not exist (C28). For the refutation, opening makes a template known (`known_open`). Theorems: `C110_offered_partial`, `C110_missing_refuted`. Result: C110_offered_partial: known templates are files on disk, so every label is found by canonicalize from the templates directory, and no later analysis reports it. C110_missing_refuted: an open document whose name below the templates directory does not exist (not saved yet, or escaped in the URI) is offered, and a reference of that name is then reported. Missing: the general claim, which is false
* **C111 Completion documents filters and tests as hover does** (partial; Documented.lean). Modelled: completion items and hover texts as in C44, C86 and C94 (documentation is the path of the text that is included); `FilterShows`/`TestShows` say that hover shows a text for a filter (test) of a name in every state and template. Proof: Items of variables, templates and snippets have no documentation (induction on the loops); lists of filters and tests are the tables, and hover looks names up in the same tables, in which names occur once (C44, C94). The position at the bar and after `is` is that of C86. Theorems: `C111_item`, `C111_filters`, `C111_tests_partial`, `C111_embedded`. Result: C111_item: any list in any state; C111_filters, C111_tests_partial: exactly the documented ones; C111_embedded: Node API. Missing: the tests true and false (C44_reserved_refuted shows that hover treats them differently)
* **C112 URIs the server sends name the files they are about** (partial; Addresses.lean). Modelled: goto-definition as for C84, code actions as for C47, reading of the workspace as for C56, publication as for C34. `fileNamed` is a client's reading of a file URI (RFC 8089, percent-decoding of RFC 3986). `UrlStandard` is what is assumed of `Url::parse` of url 2.5.2, whose source is not in the repository: for `file://` or `file:///` and an absolute path the result is `file://` and the path with its escapes, and a query or fragment stays behind it. `UrlSafe` excludes paths that the parser changes otherwise: control characters, backslash, bar, blank at the end, dot segments. Proof: Decoding what the parser escaped gives the bytes of the path unless the path contains something like an escape, and then it is shorter (`unescape_plain`, strong induction); what ends a path is escaped or cuts it (`fileNamed_path`, `fileNamed_rest`). The URIs are those of C84_goto, C47_created and the loop of C34; the keys of the result are known templates, which are on disk (`initialized_published`); names of files that are there are not reported (`not_missing`, C28). Theorems: `C112_goto_partial`, `C112_goto_refuted`, `C112_place_partial`, `C112_fix_partial`, `C112_fix_refuted`, `C112_created_partial`, `C112_published_partial`, `C112_published_refuted`. Result: C112_goto_partial, C112_place_partial, C112_fix_partial, C112_created_partial, C112_published_partial: for safe paths without something like an escape. C112_goto_refuted, C112_fix_refuted, C112_published_refuted: for every other path of the two kinds the URI names another file. Missing: the general claim, which is false
* **C113 What completion offers is asked for while typing** (partial; Typing.lean). Modelled: the announced trigger characters (`announced.completion`), completion as for C86; `AsksAfter` is the behaviour of an editor in the protocol (trigger kinds), with any notion of a word. Proof: The announcement is computed; the kind of the request is only compared with the two kinds that are served; the offers are those of C86_snippets, C86_filters and C86_templates. Theorems: `C113_asked`, `C113_answers`, `C113_snippets`, `C113_filters_refuted`, `C113_templates_refuted`. Result: C113_asked, C113_answers, C113_snippets: proved. C113_filters_refuted, C113_templates_refuted: the places where something is offered but the editor does not ask. Missing: the claim that the editor asks wherever something is offered, which is false
* **C114 A larger workspace never means more errors** (proved; Larger.lean). Modelled: did_open, did_save, read_tree and search_errors as for C25 and C28; the file systems are two arbitrary `World`s of which the second is not missing anything the first one has (`HasMore`); `NoWorse` compares the reports one by one, those about missing templates up to order. Proof: What is recorded for the template is the same in both (AsOne); the verdict about a use is monotone in the names known; a filter of the references with a stronger condition is a sublist; the history by induction, each new document only adds an entry. Theorems: `C114_reports`, `C114_opened`. Result: C114_reports: for any two servers that agree about the template, the second knowing all names the first knows; C114_opened: for a history of newly opened documents
* **C115 Questions about a rewritten template get the rewritten answers** (proved; Moved.lean). Modelled: goto_definition, hover and data_type with the queries JINJA_OBJECTS, JINJA_DEFINITIONS and JINJA_IMPORTS on syntax trees; rewritings as for C92 (Spec/Recast.lean). `GotoAs` says which answers correspond. Proof: A relation between the states of the two loops over the captures (`Cur`), which includes the identifier and operator last seen and the bookkeeping after the cursor, is kept by each capture (`Cur.check`, `Cur.loop`, `Cur.finish`); the template names before the cursor correspond (`template_recast`); the greatest of the recorded definitions is at the corresponding place, whatever the order of scope ids (`latest_same`); the entries of other files are the same up to order (`SameElse.collect`). Theorems: `C115_goto`, `C115_hover`. Result: C115_goto, C115_hover. Assumed of the trees: positions of names have 32 bits (the protocol's range), operators are not empty (`Measured`); the cursor is not at the origin unless the origin stays where it is; the first segments of names recorded for other files are kept. Hover also assumes that names of documented filters and tests are kept and that two definitions of one name at one place are of one kind
* **C116 Completion moves with the lines** (partial; Shifted.lean). Modelled: `completion` with its queries over the syntax tree, and the items made from its result. Proof: Simulation of the loop of `objects_query` as in C115, extended by the expression, the ends of its children, the test and the pipe; every comparison of the cursor with a place commutes with a strictly increasing move of rows, except for places that are still at their default. The template name under the cursor is traced to a capture. Variables are recorded rewritten (C92), so the same ones are visible. Theorems: `C116_completion_partial`, `C116_start_refuted`. Result: False at the very start of a template (C116_start_refuted): the default state of the query looks like a pipe at row 0, column 0, so all filters are offered there, and nothing is offered at the moved position. Proved for all other positions, and for that one if no line is inserted above it
* **C117 Ranges shown in the editor cover the name they are about** (partial; Places.lean). Modelled: Positions of nodes as `advance` over the text (bytes per row), positions of the protocol as offsets in UTF-16 code units, `to_position2`/`to_range`/`to_point`, `document_symbols`, `create_diagnostic`, `goto_definition`. Proof: A point after a prefix of the text is the same position of the protocol exactly if the last line of the prefix has as many bytes as UTF-16 code units, that is, if it is ASCII (`selects_iff`, `cursor_iff`). Every recorded identifier, every use and every reference is traced to a node of the tree (C14, C71), whose text stands in the document by assumption (`Spelled`, what tree-sitter guarantees). Theorems: `C117_symbols_partial`, `C117_diagnostics_partial`, `C117_shifted_refuted`, `C117_goto_partial`, `C117_goto_refuted`. Result: False after characters that are not ASCII (C117_shifted_refuted, C117_goto_refuted): columns of tree-sitter count bytes, columns of the protocol count UTF-16 code units, and none is converted into the other. The range covers the name exactly if the line before the name is ASCII; with the cursor in a name after other characters the server looks further to the left and may answer for another name. Names that are themselves not ASCII are left out
* **C118 Places of embedded templates are places in the host document** (partial; NodePlaces.lean). Modelled: `add_one` with its padding, `get_variables`, `hover`, `goto_definition` of the Node API with their line offsets (32-bit arithmetic), positions of nodes as `advance` over the padded text, positions in the host document as offsets in UTF-16 code units. Proof: The place of a piece of content in the padded text, moved down by `line`, denotes the same place in the host document exactly if the line of the content before it is ASCII (`Embedded.offset_iff`, `Embedded.cursor`): on the first line the padding replaces the margin, on the others both texts agree. What is recorded after any calls is traced to the last content (`Hosted.recorded`, as in C103), names to nodes (C14, C17), answers by C94, C102 and C58. Theorems: `C118_variables_partial`, `C118_shifted_refuted`, `C118_links_partial`, `C118_hover_partial`, `C118_goto_partial`. Result: False after characters of the template that are not ASCII, on the same line (C118_shifted_refuted): columns count bytes. For variables this is an equivalence. The characters of the host document before the template may be anything, because the text is padded with one space per UTF-16 code unit. Names that are not ASCII or contain spaces are left out; goto-definition only for file names as in C102_local_partial
* **C119 Opening an unchanged document changes nothing** (partial; Reopened.lean). Modelled: `read_file`, `walkdir`, `read_trees`, `did_open` with the old tree handed to the parser, `did_save`, `search_errors`. Proof: While the workspace is read, each document keeps the definitions that analysing it again would record, also if several paths lead to one file (`Loading`, induction over the walk); an opened or saved document does (C98). Opening with the held text records the same definitions with an equivalent tree (`open_held`), so that the new state is alike in the sense of C89; the reports are compared as in C98. Theorems: `C119_startup_partial`, `C119_reopened`, `C119_source_refuted`. Result: C119_startup_partial: templates after an initialisation; C119_reopened: templates and source files after opening or saving (closed and opened again, for instance). C119_source_refuted: missing templates of source files are not reported at the initialisation, but when the unchanged source file is opened. Assumed: parsing does not fail, a parse that is handed the tree of the very same text yields an equivalent tree (`Repeats`), canonicalisation keeps the class of a file, the same files on disk at both analyses. Quick fix requests are not part of the claim (they follow the published list with a delay, C85)
* **C120 A variable is reported exactly if Jinja does not find it bound** (partial; Scoping.lean). Modelled: the queries over syntax trees, `JinjaDefinitions`, `search_errors` and the publication after opening or saving. Proof: Induction over the abstract syntax: every binding Jinja sees at a name is recorded with a scope that covers the name (`sees_inScope`, with the bracket matching of C64 across unfinished `else` brackets); in the other direction every recorded binding whose scope touches the name is one that Jinja sees, or a block: for templates without branches by induction (`near_sees`), and blocks with branches that bind nothing can be replaced by their contents, which changes neither what is recorded (`flat_bindings`) nor what Jinja sees (`flat_sees`; together `simple_sees`). C71 turns recorded bindings into reports. Theorems: `C120_bound_partial`, `C120_unbound_partial`, `C120_never`, `C120_if_refuted`, `C120_import_refuted`, `C120_target_refuted`, `C120_capture_refuted`, `C120_call_refuted`, `C120_own_refuted`, `C120_with_refuted`, `C120_else_refuted`, `C120_inline_refuted`. Result: C120_bound_partial: no false alarm at a name bound by `set`, as first target of a loop, in `with`, as macro or parameter of one, and not only in an `if` that has ended (`LexicallyBound`), in templates without block-form `set` and `call` (`Paired`). C120_unbound_partial: no misses in templates without block-form `set` and `call` in which `else` and inline `if` do not stand in loops, `with`, macros or blocks that bind names, no header evaluates a name it binds and those of `with` and macros evaluate none (`Simple`). C120_never (any template): a name that no `set`, loop, `with` or macro header contains is reported. Outside these classes the claim is false: false alarms in C120_if_refuted, C120_import_refuted, C120_target_refuted, C120_capture_refuted, C120_call_refuted; misses in C120_own_refuted, C120_with_refuted, C120_else_refuted, C120_inline_refuted. Jinja's rules (Spec/Jinja.lean) are stated independently of the server; parameters of `call` blocks are not part of the abstract syntax, a `block` sees the names around it
* **C121 Goto-definition and hover follow the binding Jinja resolves a variable to** (partial; Scoping.lean). Modelled: as for C83 and C120. Proof: By `sees_latest` the bindings visible under Jinja's rules are listed with decreasing positions, so the one Jinja resolves to starts last; `sees_inScope` and `simple_sees` (C120) identify them with the bindings that reach the cursor, and C83 says that the server takes the one that starts last. Theorems: `C121_goto_partial`, `C121_block_refuted`, `C121_hover_partial`, `C121_elsewhere_partial`. Result: C121_goto_partial, C121_hover_partial, C121_elsewhere_partial: for templates that are `Simple` and, the first two, variables that Jinja resolves to a `Lexical` binding (C120); for goto-definition the variable must not have the name of a block of the template. C121_block_refuted: otherwise goto-definition leads to the block around the variable. Lines and columns below 2^32
* **C122 Completion offers exactly the names that Jinja can see** (partial; ScopedCompletion.lean). Modelled: as for C86 and C120. Proof: C86 says that the names of the recorded bindings in force at the cursor are offered. Such a binding has its token before the cursor, hence not behind the name, so its scope touches the name and, outside tags, Jinja sees it (`simple_sees`); conversely the scope of a binding that Jinja sees covers the name (`sees_inScope`) and ends with a token or the document (`bindings_scope`), hence not before the cursor. Theorems: `C122_typed_partial`, `C122_behind_partial`, `C122_if_refuted`, `C122_import_refuted`, `C122_target_refuted`, `C122_else_refuted`, `C122_inline_refuted`. Result: C122_typed_partial (in a name) and C122_behind_partial (behind a name, with no other token in between): for templates that are `Simple`, exactly the `Lexical` bindings are offered (C120). Otherwise the claim is false: names that are not offered in C122_if_refuted, C122_import_refuted, C122_target_refuted; names offered although they are not bound in C122_else_refuted, C122_inline_refuted. The names Jinja itself defines (`loop`, `range`, …) are not part of the rules in Spec/Jinja.lean and never offered
* **C123 What the editor shows when typing stops follows Jinja's scoping rules** (partial; ScopedRest.lean). Modelled: as for C82 and C120. Proof: At rest the workspace and the diagnostics last displayed are those of a save of the text in the editor (`quiet_saved` of C82), so the theorems about a save (C120, C121, C122), which need only the recorded analysis, apply (`rest_shown`). Theorems: `C123_diagnostics_partial`, `C123_requests_partial`. Result: C123_diagnostics_partial and C123_requests_partial: for the templates for which C120, C121 and C122 hold (`Paired`, `Simple`, `Narrow`, `Lexical` bindings; the refutations there carry over) and executions in which positions fit into 32 bits (`SmallResults`)
* **C124 What the backend passes is known in the templates** (proved; Passed.lean). Modelled: the backend queries over arbitrary syntax trees, the whole message handling. Proof: What is recorded for a saved backend file is what its present text passes (`Reached.variables`, from the invariant `kept_run` of C89, with the exact characterisations of C74 and C76); then C71, C83, C86. Completion offers nothing else because entries of templates are never of the backend kind (C38) and the language is always Rust or Python (`language_run`). Theorems: `C124_reported`, `C124_goto`, `C124_hover`, `C124_offered`, `C124_typed`, `C124_offered_only`. Result: C124_reported, C124_goto, C124_hover, C124_offered, C124_typed, C124_offered_only. Goto and hover: for names without a dot. Goto also: for a passed name that is not at the very beginning of its file (an entry with an empty extent there stands for the file itself, as in C36).
* **C125 When typing in a backend file stops, everything follows its text** (partial; PassedRest.lean). Modelled: as for C69 (executions), C74, C76, C78 (syntax trees of backend files) and C83, C86 (templates). Proof: At rest the workspace is that of a save of the text in the editor (quiet_current), which records the query results of its tree (save_backend); these are what C74, C76, C78 say (passes_of, refers_of); requests as in C124; the refutation is one execution, evaluated. Theorems: `C125_recorded_partial`, `C125_underlined_partial`, `C125_requests_partial`, `C125_goto_partial`, `C125_open_refuted`. Result: C125_recorded_partial, C125_underlined_partial, C125_requests_partial (hover, completion), C125_goto_partial: all but the last part, for files that are legible UTF-8 (names: without syntax error). C125_open_refuted: the last part is false, because saving (or pausing in) a backend file re-analyses that file only; open templates keep the list computed before. The assumption on positions is about the parser alone (C65_small)
* **C126 Embedded templates are answered by Jinja's scoping rules** (partial; NodeScoping.lean). Modelled: as for C118 (the template in its host document), C94, C102, C61 (Node API) and C120 (Jinja's scoping rules, Spec/Jinja.lean). Proof: What addOne recorded is what C64 says of the syntax tree (HostedProgram.analysed); the latest binding that reaches the cursor is the one Jinja resolves to (AsProgram.reached, AsProgram.forced); then C102, C94 and C122; ranges by Embedded.selects_iff. Theorems: `C126_goto_partial`, `C126_hover_partial`, `C126_unbound_partial`, `C126_complete_partial`, `C126_typed_refuted`. Result: C126_goto_partial, C126_hover_partial, C126_unbound_partial, C126_complete_partial: for the bindings and templates of C121/C122 (the claim is false for the others there), host file names that are URLs and part of the document's name (C102), and lines of the template that are ASCII up to the variable (C118). C126_typed_refuted: while a name is being typed completion offers nothing, unless variables are stored under the bare name of the host file
* **C127 Text and comments between the tags do not matter** (partial; Outside.lean). Modelled: syntax trees and queries as for C64/C92; nodes without meaning are those whose kind no query mentions, with all their descendants (Tagless). Proof: Every query reports nothing at a node of no interest and looks at neighbours and ancestors only through their kind (reports_local, reports_unheard), so a walk over the document equals the walk over its tags (tagsOnly_walk) and the environments are equal (over_tags). For the second part the documents are replaced by their tags (retold) and C92, C115 and C116 apply. Theorems: `C127_parser`, `C127_reports`, `C127_references`, `C127_symbols`, `C127_goto`, `C127_hover`, `C127_completion_partial`. Result: C127_parser holds without conditions. The others are for templates without error nodes (an error node reaches over what is beside it, C92) and, for answers, positions that are not the very beginning of the file unless it stays in place (sentinel position, C115/C116); C127_completion_partial is for moves by whole lines
* **C128 Tags that bind nothing have no influence on other tags** (partial; Bindless.lean). Modelled: syntax trees, tags and elements as for C64/C71; renaming and moving as for C92. Proof: Reading the tags of both documents gives item lists; leaving out inert items changes neither the end tag that matches (Drops.matchEnd) nor the bindings (Drops.bindings), and what is left corresponds, so C64 and C92's rewriting of definitions give corresponding bindings (touched_bindings). The outline lists them (C83) and the verdict about a use depends on them only (C25, Ok.verdict). Theorems: `C128_symbols_partial`, `C128_reports_partial`, `C128_inline_refuted`. Result: False for expressions with an inline `if`, which open a scope that is never closed (C128_inline_refuted: changing {{ a }} into {{ a if b }} in a loop silences the report about the loop variable after it). For well-formed templates without such changes it holds; the reports need that the beginning of the file stays in place or no scope ends there (sentinel)
* **C129 Writing on at the end of a template changes nothing that is said about the part before** (proved; Pieces.lean). Modelled: syntax trees, tags and elements as for C64/C83/C86. Proof: The bindings of the longer template begin with those of the shorter, with ends of scopes that are the same or behind the place for both (bindings_before, matchEnd_before); the new ones begin behind it. Lists of bindings related like this say the same about a name at a place (Concur), hence reports (C25), goto-definition and hover (C83) and completion (C86) agree. Theorems: `C129_outline`, `C129_reports`, `C129_goto`, `C129_hover`, `C129_offered`. Result: For templates without syntax errors (C15 says what happens at errors). The kind of a report (undefined / defined somewhere) may change if the new part binds the name. For goto and hover: no two bindings begin at the same place, and lines and columns fit into 32 bits
* **C130 A complete piece of a template has no influence on the tags around it, but for the names it leaves behind** (partial; Pieces.lean, WrittenOn.lean). Modelled: as for C129; a piece is complete if it is balanced with every opening tag, `else` and inline `if` counted as a bracket (Items.Complete). Proof: A balanced piece does not take part in matching outside (level_matchEnd), every scope opened in it ends in it (matchEnd_inside, bindings_piece) unless the name is left behind; so the lists of bindings say the same about other names outside (concur_piece). Theorems: `C130_outline_partial`, `C130_reports_partial`, `C130_goto_partial`, `C130_hover_partial`, `C130_offered_partial`, `C130_else_refuted`, `C130_rest_partial`. Result: False for pieces with `else`, `elif` or an inline `if`, each of which opens a scope of its own that is not closed with the block (C130_else_refuted: a condition with `else` in a loop silences the report about the loop variable after the loop). For pieces without them it holds. The other tags stay in place (moving them is C92/C127)
* **C131 Tags that end no block of their surroundings take nothing away from the tags around them** (proved; Growing.lean). Modelled: as for C129. Proof: With m more brackets open, a block from before is closed by an end tag further out (matchEnd_outer), and tags that follow bind the same with scopes that are not shorter (bindings_deeper, by induction over the tags; level_open for those at the outermost level). So every binding is still there and reaches at least as far (extends_added), and reports (C25), goto-definition (C83) and completion (C86) are monotone in that. Theorems: `C131_reports`, `C131_goto`, `C131_offered`. Result: For templates without syntax errors; the other tags stay in place (moving them is C92/C127). End tags follow one another in the file, and the use is not at the very end of the file. This covers the pieces with `else` for which C130 fails: there reports get lost, here it is shown that none appear
* **C132 Writing in one part of a template leaves the squiggles in other parts as they are** (proved; WrittenOn.lean). Modelled: executions as for C69/C82, templates as for C129. Proof: At rest the published list is that of a save of the text in the editor (quiet_saved), so a use is underlined exactly if it is no filter or test and no binding is visible (calm_shown, underlined_iff: converse of the existing direction by uniqueness of uses at a place); the bindings at the two moments are compared by concur_appended (C129) and extends_added (C131). Theorems: `C132_end`, `C132_added`. Result: For texts without syntax errors whose other tags stay in place; under the conditions of C82 (client edits with ranges, no quick fixes, results small enough for the channels). The part about complete pieces, which is false for pieces with `else`, is C130_rest_partial
* **C133 Writing in one part of an embedded template leaves the answers in other parts as they are** (partial; NodePieces.lean). Modelled: the Node API as for C126; templates as for C129/C130. Proof: What is recorded for an embedded template are the bindings of its tags (HostedItems.analysed, from C64); goto, hover and completion of the API are characterised by them (HostedItems.goto/hover/complete from C102, C94, C86) without the program structure C126 needs; two templates are compared by Concur (C129, C130). Theorems: `C133_goto_end_partial`, `C133_goto_partial`, `C133_hover_end_partial`, `C133_hover_partial`, `C133_offered_end_partial`, `C133_offered_partial`. Result: Missing: pieces with `else`, `elif` or an inline `if` (false, C130); file names that are no URLs (goto panics, C102); names a hint in force begins with (C94); completion while a name is typed (offers nothing, C126); lines of the template before the cursor that are not ASCII (C118). For templates without syntax errors whose other tags stay in place
* **C134 No call of the Node API panics** (partial; NodeSurvival.lean). Modelled: the whole Node API object (Model/Node.lean) except `basic` (C91). Proof: The arithmetic of a release build never fails; the queries do not (C67); every name variables are stored under is a `file:///` URI or was given by a call that saves hints (invariant `Origins` over all sequences of calls), so an entry that leads to no URL is a hint; array answers consist of URLs already parsed. Theorems: `C134_calls`, `C134_requests`, `C134_goto_partial`, `C134_safe_partial`, `C134_file_refuted`, `C134_hint_refuted`. Result: Proved for all calls but goto-definition (`C134_calls`, `C134_requests`). Goto-definition panics in files whose names are no URLs (`C134_file_refuted`) and with hints under the default name `temp` (`C134_hint_refuted`); these are the only reasons (`C134_goto_partial`, `C134_safe_partial`). Missing: debug builds, where positions above the template panic (C59). Assumptions on tree-sitter and the url crate are explicit hypotheses (`Spec.Sound`, `Spec.KeepsUrls`)
* **C135 Putting a block around a part of a template changes only what the block is about** (partial; Wrapping.lean). Modelled: as for C129/C130. Proof: The bindings of the part, one level deeper, are the same but for the ends of the scopes that end behind it (`bindings_inside`); the two lists of bindings say the same about a name at a place (`concur_wrapped`), from where on the proofs of C130 apply. Theorems: `C135_outline_partial`, `C135_reports_partial`, `C135_goto_partial`, `C135_hover_partial`, `C135_offered_partial`, `C135_else_refuted`. Result: Missing: parts with `else`, `elif` or an inline `if` (`C135_else_refuted`). For templates without syntax errors whose other tags stay in place
* **C136 However a template is rewritten in other parts, the same is said about a name** (proved; Edits.lean). Modelled: as for C129/C130/C135; at rest as for C132. Proof: To say the same about a name between two places (`Concur`) is an equivalence (`Concur.symm`, `Concur.trans`), and every step keeps it (`concur_retouch`, new `concur_reopened`); induction over the steps. Theorems: `C136_reports`, `C136_goto`, `C136_hover`, `C136_offered`, `C136_rest`. Result: For templates without syntax errors; pieces are complete in the sense of the server's brackets, so those with `else` or `elif` are excluded by the statement (C130_else_refuted, C135_else_refuted)
* **C137 However an embedded template is rewritten in other parts, the answers about a name stay the same** (partial; NodeEdits.lean). Modelled: as for C133 and C136. Proof: `hosted_goto`, `hosted_hover` and `hosted_offered` of C133 with `concur_retouched`. Theorems: `C137_goto_partial`, `C137_hover_partial`, `C137_offered_partial`. Result: Missing: file names that are no URLs (C102_filename_refuted), names that a hint in force begins with, and completion in names (C126)
* **C138 A definition leads to itself and is described as what it is** (partial; Settles.lean). Modelled: as for C83; at rest as for C132. Proof: The binding reaches its own name and no other one that does starts later (C83_goto); hover looks for bindings that end before the name (C83_hover, C83_hover_elsewhere). Theorems: `C138_self`, `C138_twice`, `C138_rest`, `C138_hover_refuted`, `C138_shadowed_refuted`. Result: Goto-definition: C138_self, C138_twice, C138_rest, for bindings whose names are read as names and do not overlap others. False for hover: on the first definition it shows nothing (C138_hover_refuted), on a later one the kind of an earlier one (C138_shadowed_refuted)
* **C139 In embedded templates too, a definition leads to itself and is described as what it is** (partial; NodeSettles.lean). Modelled: as for C133. Proof: As for C138, by the answers of the Node API in terms of the bindings of the tags (HostedItems.goto, HostedItems.hover, C94_unknown_refuted). Theorems: `C139_self_partial`, `C139_twice_partial`, `C139_hover_refuted`, `C139_shadowed_refuted`. Result: goto_definition: C139_self_partial, C139_twice_partial, for file names that are URLs, and bindings whose names are read as names and do not overlap others. False for hover: on the first definition it shows nothing (C139_hover_refuted), on a later one the kind of an earlier one (C139_shadowed_refuted)
* **C140 A name is not reported as undefined where the template binds it** (partial; AtHome.lean). Modelled: as for C83 and C138. Proof: Induction on the tags of the syntax tree: what a tag binds are leaves of it, and the end tag at which a scope ends starts with a node behind them, so that by the order of nodes it starts behind the name (bindings_reach); then reports in terms of bindings (reported_unless, calm_shown). Theorems: `C140_scope`, `C140_unreported_partial`, `C140_rest_partial`, `C140_block_refuted`, `C140_target_refuted`. Result: Proved for the scopes of all bindings (C140_scope) and for reports of all bindings but blocks (C140_unreported_partial, C140_rest_partial), where the syntax tree ends with the text. False for blocks, whose names are reported where they are given (C140_block_refuted), and for further targets of loops (C140_target_refuted)
* **C141 Goto-definition leads to entries of the outline** (partial; Listed.lean). Modelled: as for C36 and C45. Proof: Case analysis of goto_definition: the greatest of the recorded variables is one of them, and induction over the files and variables collected; the outline has an entry for each recorded variable (goto_lists). Theorems: `C141_listed_partial`, `C141_named_partial`, `C141_rewritten_refuted`. Result: Proved for files recorded under a URI as the URL parser writes it (C141_listed_partial, C141_named_partial). False for others, such as files found at startup in directories with a space in their name: the answer names a URI that has no outline (C141_rewritten_refuted)
* **C142 In embedded templates, goto_definition leads to variables that get_variables lists** (proved; NodeListed.lean). Modelled: as for C102. Proof: Case analysis of goto_definition (goto_scalar): the answer is a recorded variable of the document moved by the line, and get_variables moves each recorded variable by the same line (shiftAll_mem, by induction). Theorems: `C142_listed`, `C142_release`, `C142_named`. Result: C142_listed: any build in which get_variables answers; C142_release: in release builds it always does; C142_named: names. Places outside of the host document (is_backend) are the subject of C102
* **C143 Definitions are listed in the order of the text, without overlaps** (proved; InOrder.lean). Modelled: as for C64 and C138; that names have an extent (Filled) and that nodes are in order (Laid) are facts about the parser. Proof: By induction on the tags, the extents of the bindings are a sublist of the name tokens of the tree in its order (bindings_leaves); in an ordered tree with distinct nodes, leaves do not overlap (bindings_apart). Theorems: `C143_outline`, `C143_rest`, `C143_home`, `C143_node`, `C143_node_home`. Result: C143_outline, C143_rest: the server; C143_node: the Node API; C143_home, C143_node_home: C138/C139 without the assumption that definitions do not overlap (there Separate), which is proved here
* **C144 Squiggles in a template do not overlap** (proved; Squiggles.lean). Modelled: as for C71 and C82; that names and strings have an extent (Solid) and that nodes are in order (Laid) are facts about the parser. Proof: Reported uses are a sublist of the identifiers of the tree (uses_nodes, induction), reported references a permutation of a sublist of its strings (refs_nodes, induction); different leaves of an ordered tree do not overlap (nodes_clear). Theorems: `C144_reports`, `C144_rest`. Result: C144_reports: what is sent to the diagnostics task; C144_rest: what the editor displays
* **C145 With hide_undefined, exactly the missing templates are underlined** (proved; Hidden.lean). Modelled: as for C71, C82 and C144. Proof: No use yields a diagnostic (objectDiag_ignore), so the list is its missing-template part, which C28 describes; the references are strings of the tree in their order (refs_nodes); at rest the published list is that of a save in the state of the server (quiet_saved). Theorems: `C145_reports`, `C145_apart`, `C145_rest`. Result: C145_reports and C145_apart: what is sent to the diagnostics task; C145_rest: what the editor displays. That the workspace hides undefined names when the configuration says so is C26.
* **C146 Where a template binds a name, the server takes it for that name** (partial; Reserved.lean, Sites.lean). Modelled: as for C71, C82, C83 and C143. Proof: Every recorded definition stands at a name of the tree (binding_node, induction over the tags) and every name of the tree is read as a use, attribute or reserved word (reads_name, induction over the reading); two names that start at one place are one node (same_site); then C143_home, C83_goto and the visibility of C140. Theorems: `C146_reserved_refuted`, `C146_read`, `C146_quiet_partial`, `C146_goto_partial`, `C146_twice_partial`, `C146_rest_partial`, `C146_attribute_refuted`. Result: C146_read: every recorded definition is also read as a use, unless it is an attribute or a reserved word; C146_goto_partial, C146_twice_partial, C146_quiet_partial, C146_rest_partial are without the hypotheses about uses and separation of C138 and C140. False for attributes (C146_attribute_refuted: in `{% with a = x.b %}` the `b` is recorded as a definition, and goto-definition on it leads to `x`), and for the diagnostics of block names (C140_block_refuted), and for reserved words (C146_reserved_refuted in Reserved.lean: a definition `{% set module = 1 %}` is listed in the outline, but goto-definition leads there from nowhere).
* **C147 A reserved word is never taken for a variable** (proved; Reserved.lean). Modelled: objects_query with its loop, build_object, search_errors, goto_definition, hover and data_type, the start of the server; tree-sitter's matches are arbitrary. Proof: Invariant of the loop of objects_query over arbitrary captures: no object has a reserved name (query_unreserved); then inversion of goto_definition, hover, search_errors and of every message of the server (C147_reports, with induction over the files at the start). Theorems: `C147_goto`, `C147_hover`, `C147_reports`, `C147_node`. Result: C147_reports (all messages, including the start), C147_goto, C147_hover, C147_node. The other side of it is C146_reserved_refuted: `{% set module = 1 %}` is listed in the outline although goto-definition leads there from nowhere.
* **C148 In embedded templates, every listed variable leads to itself** (partial; NodeSites.lean). Modelled: as for C126, C142 and C143. Proof: What get_variables lists are the bindings of the template where the host document has them (C143_node), each of which is read as a use (C146_read), whose answer is C143_node_home; only place and text of a name matter for the cursor (inName_alike). For reserved words: C147_node, and listed variables do not overlap. Theorems: `C148_itself_partial`, `C148_twice_partial`, `C148_reserved_refuted`. Result: C148_itself_partial and C148_twice_partial speak about what get_variables returned. Missing: variables listed where the template has an attribute (`b` in `{% with a = x.b %}`, see C146_attribute_refuted), and reserved words, for which it is false (C148_reserved_refuted: `{% set module = 1 %}` is listed, and goto_definition leads there from nowhere).
* **C149 What is said about a name depends on the definitions of that name only** (proved; Concern.lean). Modelled: as for C83 and C96; `AlikeFor` says where the two states agree. Proof: Each search is a filter that only lets definitions concerning the name through (concerning_filter), so it sees equal lists; the files with something to say about the name are the same up to order (AlikeFor.relevant), and collecting locations from the rest adds nothing (collect_relevant). C149_elsewhere: other documents are unchanged (Frame). Theorems: `C149_goto`, `C149_hover`, `C149_reports`, `C149_elsewhere`, `C149_sessions`, `C149_published`. Result: C149_goto and C149_hover compare two states; C149_reports compares what an analysis finds; C149_elsewhere compares the answers before and after another document is opened, changed or saved; C149_sessions and C149_published compare two whole sessions with any messages about other documents.
* **C150 In embedded templates, what is said about a name depends on its own definitions and hints** (partial; NodeConcern.lean). Modelled: as for C149 and C94; `AlikeFor` says where the two states agree, `hintsFor` which hints hover may show. Proof: goto_definition moves the locations of C149_goto, and moving is indifferent to their order (shiftLocations_perm); hover looks for the first hint whose name begins with the name, which a filter by that test preserves (find_filter). Theorems: `C150_goto`, `C150_hover_partial`, `C150_hint_refuted`, `C150_told`, `C150_calls`, `C150_calls_hover_partial`. Result: Proved for goto_definition (C150_goto for two states, C150_told for telling hints, C150_calls for any calls about other documents). False for hover: the description of a hint for a longer name is shown for the name (C150_hint_refuted). Hover is alike if the hints also agree for names that begin with the name (C150_hover_partial), in particular after calls about other documents that tell no hints under temp (C150_calls_hover_partial).
* **C151 Whether and how a name is offered depends on the definitions of that name only** (proved; OfferedNames.lean). Modelled: as for C38 and C39; `AlikeNamed` says where the two states agree, `OfferedAlike` compares the items with the name as label. Proof: of the variables of the document the item of the first visible definition is the only one with the name (variableItems_named); collecting backend variables from all files gives permuted lists if each file contributes the same (flatMap_agree). Theorems: `C151_offered`, `C151_elsewhere`, `C151_sessions`. Result: C151_offered compares two states, C151_elsewhere the states before and after another document is opened, changed or saved, C151_sessions two whole sessions. Names of templates are offered from the set of documents and are out of the claim (C41, C42).

## 5. Axioms of each theorem

As printed by `#print axioms`. `propext`, `Classical.choice` and `Quot.sound` are the axioms of Lean itself; nothing else occurs.

* no axioms: C44_one_entry.
* `propext`: C01_refuted_nonascii, C01_refuted_column, C01_refuted_formfeed, C03_start, C07_expiry_saves, C12_toplevel_endset_partial, C12_endset_refuted, C12_inline_if_refuted, C15_backend, C38_start, C47_expires, C91_total, C91_error_refuted, C100_nothing_else.
* `Quot.sound`, `propext`: C01_offset_drift, C02_full_change_ignored, C02_stale_tree, C06_dead_worker, C06_after_crash, C06_never_revived, C07_two_pending, C08_unknown_document, C10_unsupported, C10_last_extension, C11_scopes, C11_symbols, C12_toplevel_branches_partial, C12_else_refuted, C12_loop_else_refuted, C13_key_partial, C13_no_loop_value, C14_from_text, C15_definitions, C15_definitions_names, C15_uses, C15_imports, C16_with_recorded, C16_with_partial, C16_with_refuted, C16_macro_partial, C16_macro_refuted, C18_hover, C18_code_action, C18_goto, C18_completion_partial, C19_filter_partial, C19_identifier, C19_test, C20_identifier_prefix, C20_template_prefix, C31_save_publishes_partial, C31_published_partial, C31_unreadable_refuted, C32_first_error_refuted, C33_never_analysed_partial, C34_faithful, C34_analysis_published, C37_urls_partial, C38_offered, C38_no_other, C39_all_partial, C39_duplicates_refuted, C39_prefix_refuted, C41_labels_partial, C41_here_refuted, C42_outlier_refuted, C45_symbols, C45_none, C46_window_refuted, C47_scheduled_partial, C47_not_loaded_refuted, C48_message, C48_session, C48_published, C49_request, C49_requests, C49_invisible, C50_function_partial, C50_open_text_refuted, C50_saved_partial, C51_language, C51_walk, C51_otherwise, C52_options, C52_project, C52_kept, C52_in_force, C53_bounded, C53_stuck_iff, C53_dead_iff, C53_survivor_partial, C53_self_deadlock_refuted, C54_session, C55_format, C56_documents, C56_trees, C56_diagnostics, C57_unit, C59_variables, C60_delete_partial, C60_backend_tree_refuted, C60_hint_refuted, C63_queries_partial, C63_navigation_partial, C63_updates_partial, C63_python_refuted, C64_bracket_matching, C65_in_order, C65_ended, C66_executions, C68_reset_refuted, C69_unloaded_refuted, C73_uses, C79_symbols_refuted, C80_announced_partial, C80_warn_refuted, C80_will_save_refuted, C80_context_refuted, C81_observable_refuted, C88_elsewhere_refuted, C89_error_refuted, C89_unsaved_refuted, C93_statements, C93_inserted_partial, C93_literal_refuted, C93_vscode_refuted, C100_accepted, C100_list, C100_same, C100_initialize, C100_changed, C100_missing, C100_wrapped, C100_project, C101_plugin_refuted, C101_unset_partial, C104_stale_refuted, C105_described, C113_asked, C113_answers, C119_source_refuted, C127_parser, C129_outline, C130_outline_partial, C135_outline_partial, C140_scope, C143_outline, C146_read.
* `Classical.choice`, `Quot.sound`, `propext`: C01_history_partial, C01_edit_partial, C01_batch_partial, C01_ascii_partial, C01_exact, C03_fresh_partial, C04_handed_partial, C04_regions_partial, C04_new_end_partial, C04_append_wrong, C04_new_end_exact, C04_line_exact, C05_roundtrip, C05_monotone, C05_inverse, C06_edit_crash_iff, C06_forward_ok, C06_valid_edit_crashes, C06_notification_crash_iff, C07_at_most_one_partial, C07_last_changed_partial, C07_lost_reanalysis, C07_pending_stays, C09_independent, C17_uses_partial, C17_reserved_attribute_refuted, C17_reserved_test_refuted, C18_multiline_refuted, C18_last_column_refuted, C19_origin_refuted, C20_typed_partial, C20_attribute_refuted, C20_quoted_refuted, C21_goto_partial, C21_inner_quote_refuted, C21_completion_partial, C22_backend_variables, C23_template_references, C24_snippets, C25_reports_partial, C25_wellnested_partial, C25_broken, C26_silent_partial, C26_established_partial, C26_failed_start_refuted, C26_missing_unchanged, C26_start_missing_unchanged, C27_known_partial, C27_own_block_refuted, C27_template_name_refuted, C28_template_partial, C28_backend_partial, C28_other_error_refuted, C29_looks_below, C29_checked_path, C30_plain_partial, C30_absolute_refuted, C32_open_publishes_partial, C33_refuted, C35_latest, C35_opened, C35_any_order, C36_cross_file_partial, C36_template_name_refuted, C37_not_url_refuted, C38_kinds_partial, C40_replaced_partial, C40_vscode_refuted, C40_range_refuted, C40_attribute_refuted, C41_twice_refuted, C41_trailing_refuted, C41_accepted_partial, C41_vscode_refuted, C42_offered_partial, C43_local_partial, C43_elsewhere_partial, C43_template_name_refuted, C43_unrecorded_refuted, C43_any_order, C44_filter, C44_test_partial, C44_reserved_refuted, C46_inside_partial, C46_outside, C46_analysed, C46_no_directory_refuted, C47_created, C47_asked_refuted, C47_empty_refuted, C53_progress_partial, C53_mutual_deadlock_refuted, C54_contributes, C55_history, C55_session, C57_hints, C57_session_partial, C57_same_name_refuted, C58_links_partial, C58_filter_refuted, C58_python_partial, C59_hover, C59_complete, C59_goto, C59_above_debug_partial, C59_above_release_refuted, C61_names_partial, C61_description_refuted, C61_unread_refuted, C61_typed_partial, C61_typed_refuted, C62_groups, C62_paths_partial, C62_prefix_refuted, C62_same_start_refuted, C65_last_shown, C65_positions, C65_small, C65_words, C66_sequential, C67_survives, C67_reading, C67_doomed, C68_in_step, C68_reread_refuted, C69_shown, C69_wellnested, C70_symbols, C71_diagnostics, C72_analysed_iff, C73_symbols, C74_rust_exact, C74_session, C75_keys_partial, C75_other_macro_refuted, C75_value_refuted, C76_python_exact, C76_session, C77_plain_partial, C77_receiver_refuted, C77_foreign_table_refuted, C78_rust, C78_python, C78_session_rust, C78_session_python, C79_order, C79_text, C79_session, C79_filter, C79_outdated_refuted, C80_served_partial, C80_never_opened_refuted, C81_regions_partial, C81_points_partial, C81_unobservable_partial, C81_reopened_refuted, C81_append_refuted, C82_displayed, C82_outline, C83_analysed, C83_rest, C83_goto, C83_goto_elsewhere, C83_hover, C83_hover_elsewhere, C83_hover_documented, C84_goto, C84_goto_missing, C84_rest, C85_offered, C85_tree, C86_snippets, C86_filters, C86_names, C86_tests, C86_nothing, C86_templates, C86_typed, C87_bounded, C87_no_deadlock, C87_end, C87_eventually, C87_settles, C87_shown, C87_answered, C87_exact, C87_polite, C88_since, C88_saved, C88_earlier_refuted, C89_future, C89_as_new, C89_executions, C90_exact, C90_dotted, C90_none, C90_call_refuted, C90_error_refuted, C91_uses, C91_at_most, C92_reports, C92_references, C92_symbols, C92_renamed, C92_inserted, C93_next_character_refuted, C94_hint_partial, C94_kind, C94_filter, C94_longer_refuted, C94_unknown_refuted, C94_test_refuted, C95_commands_beside, C95_commands_partial, C95_commands_refuted, C95_filters, C95_names_refuted, C96_state, C96_answers, C96_reports, C97_agreement_partial, C97_block_refuted, C97_target_refuted, C97_both_refuted, C97_dotted_refuted, C98_again, C98_same_reports, C99_offered_partial, C99_both_refuted, C102_local_partial, C102_filename_refuted, C102_encoded_refuted, C102_hint_refuted, C102_elsewhere_partial, C102_others_refuted, C102_templates_refuted, C103_listed, C103_goto, C103_hover, C103_complete, C103_others_refuted, C103_delete_refuted, C104_own_text_partial, C104_process_partial, C104_node, C105_agree_partial, C105_shadowed_refuted, C106_order, C106_execution, C106_answer, C106_sequential, C106_once, C106_waiting, C107_bounded, C107_answered_partial, C107_flood_refuted, C108_hover, C108_goto_partial, C108_goto_refuted, C109_one_partial, C109_two_refuted, C109_report_refuted, C109_other_refuted, C110_offered_partial, C110_missing_refuted, C111_item, C111_filters, C111_tests_partial, C111_embedded, C112_goto_partial, C112_goto_refuted, C112_place_partial, C112_fix_partial, C112_fix_refuted, C112_created_partial, C112_published_partial, C112_published_refuted, C113_snippets, C113_filters_refuted, C113_templates_refuted, C114_reports, C114_opened, C115_goto, C115_hover, C116_completion_partial, C116_start_refuted, C117_symbols_partial, C117_diagnostics_partial, C117_shifted_refuted, C117_goto_partial, C117_goto_refuted, C118_variables_partial, C118_shifted_refuted, C118_links_partial, C118_hover_partial, C118_goto_partial, C119_startup_partial, C119_reopened, C120_bound_partial, C120_unbound_partial, C120_never, C120_if_refuted, C120_import_refuted, C120_target_refuted, C120_capture_refuted, C120_call_refuted, C120_own_refuted, C120_with_refuted, C120_else_refuted, C120_inline_refuted, C121_goto_partial, C121_block_refuted, C121_hover_partial, C121_elsewhere_partial, C122_typed_partial, C122_behind_partial, C122_if_refuted, C122_import_refuted, C122_target_refuted, C122_else_refuted, C122_inline_refuted, C123_diagnostics_partial, C123_requests_partial, C124_reported, C124_goto, C124_hover, C124_offered, C124_typed, C124_offered_only, C125_recorded_partial, C125_underlined_partial, C125_requests_partial, C125_goto_partial, C125_open_refuted, C126_goto_partial, C126_hover_partial, C126_unbound_partial, C126_complete_partial, C126_typed_refuted, C127_reports, C127_references, C127_symbols, C127_goto, C127_hover, C127_completion_partial, C128_symbols_partial, C128_reports_partial, C128_inline_refuted, C129_reports, C129_goto, C129_hover, C129_offered, C130_reports_partial, C130_goto_partial, C130_hover_partial, C130_offered_partial, C130_else_refuted, C130_rest_partial, C131_reports, C131_goto, C131_offered, C132_end, C132_added, C133_goto_end_partial, C133_goto_partial, C133_hover_end_partial, C133_hover_partial, C133_offered_end_partial, C133_offered_partial, C134_calls, C134_requests, C134_goto_partial, C134_safe_partial, C134_file_refuted, C134_hint_refuted, C135_reports_partial, C135_goto_partial, C135_hover_partial, C135_offered_partial, C135_else_refuted, C136_reports, C136_goto, C136_hover, C136_offered, C136_rest, C137_goto_partial, C137_hover_partial, C137_offered_partial, C138_self, C138_twice, C138_rest, C138_hover_refuted, C138_shadowed_refuted, C139_self_partial, C139_twice_partial, C139_hover_refuted, C139_shadowed_refuted, C140_unreported_partial, C140_rest_partial, C140_block_refuted, C140_target_refuted, C141_listed_partial, C141_named_partial, C141_rewritten_refuted, C142_listed, C142_release, C142_named, C143_rest, C143_home, C143_node, C143_node_home, C144_reports, C144_rest, C145_reports, C145_apart, C145_rest, C146_reserved_refuted, C146_quiet_partial, C146_goto_partial, C146_twice_partial, C146_rest_partial, C146_attribute_refuted, C147_goto, C147_hover, C147_reports, C147_node, C148_itself_partial, C148_twice_partial, C148_reserved_refuted, C149_goto, C149_hover, C149_reports, C149_elsewhere, C149_sessions, C149_published, C150_goto, C150_hover_partial, C150_hint_refuted, C150_told, C150_calls, C150_calls_hover_partial, C151_offered, C151_elsewhere, C151_sessions.
