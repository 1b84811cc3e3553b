{"id": "C01", "title": "Incremental edits keep the server's text equal to the editor's", "statement": "After any history of didChange notifications for an open document (each a batch of ranged edits applied one after the other), the text the server holds equals the text obtained by applying the same edits according to the LSP definition of positions and ranges.", "quantifier": "every document text, every batch and every history of ranged edits", "why_tests_cant": "the set of documents, edit positions and edit histories is infinite and errors accumulate silently from edit to edit", "anchors": ["jinja-lsp/src/lsp_files.rs: LspFiles::did_change", "jinja-lsp-queries/src/to_input_edit.rs: to_byte"]}
{"id": "C02", "title": "A whole-document change is honoured", "statement": "A didChange whose content change has no range replaces the document text, and no didChange ever leaves the text updated while the parse tree still describes an older text.", "quantifier": "every document, every mix of ranged and range-less changes in one notification", "why_tests_cant": "the failing mix is a specific ordering inside a batch; a test only covers batches someone thought of", "anchors": ["jinja-lsp/src/lsp_files.rs: LspFiles::did_change", "jinja-lsp/src/lsp_files.rs: LspFiles::input_edit"]}
{"id": "C03", "title": "The stored parse tree always describes the stored text", "statement": "At every point of every history of open, change, save and workspace (re)initialisation, each supported document the server holds has a parse tree and that tree was produced by parsing exactly the text the server holds for it.", "quantifier": "every history of notifications from server start", "why_tests_cant": "it is an invariant over unbounded histories", "anchors": ["jinja-lsp/src/lsp_files.rs: read_file, add_tree, input_edit, did_change, did_open, did_save"]}
{"id": "C04", "title": "The edit reported to the incremental parser is the edit that was made", "statement": "For every ranged change the byte offsets and row/column points handed to the incremental parser (start, old end, new end) are the positions of the replaced region in the old text and of the inserted text in the new text.", "quantifier": "every document, range and inserted text", "why_tests_cant": "wrong descriptors only corrupt the tree for particular shapes of edit", "anchors": ["jinja-lsp-queries/src/to_input_edit.rs: to_input_edit"]}
{"id": "C05", "title": "Offset/position conversion round-trips", "statement": "Converting any byte offset to a line/column position and back yields the offset clamped to the document length; the line found is the line that contains the offset, and conversion is monotone.", "quantifier": "every text shorter than 4 GiB (positions are 32-bit) with any mix of line terminators and every offset", "why_tests_cant": "binary search boundary errors show only for particular sizes and offsets", "anchors": ["jinja-lsp-queries/src/to_input_edit.rs: to_position, to_byte"]}
{"id": "C06", "title": "Exactly which edits crash the server", "statement": "Processing a ranged edit terminates abnormally exactly when its start or end line lies beyond the end of the document or its computed offsets lie beyond the end of the text; in-range forward edits never crash, and once the worker has crashed every later request is answered with no result.", "quantifier": "every text, every range, every later message sequence", "why_tests_cant": "panics depend on data; the after-effects range over all later messages", "anchors": ["jinja-lsp/src/lsp_files.rs: did_change", "jinja-lsp-queries/src/to_input_edit.rs: to_byte", "jinja-lsp/src/channels/lsp.rs: lsp_task", "jinja-lsp/src/backend.rs"]}
{"id": "C07", "title": "Delayed re-analysis after typing", "statement": "After any burst of changes there is at most one pending delayed re-analysis; it is for the document changed last, and every changed document is eventually re-analysed.", "quantifier": "every interleaving of changes to any number of documents and timer expirations", "why_tests_cant": "schedules of timers and notifications cannot be enumerated by tests", "anchors": ["jinja-lsp/src/lsp_files.rs: did_change (diagnostics_task)"]}
{"id": "C08", "title": "Changes to unknown documents are ignored", "statement": "A didChange for a document the server does not hold changes nothing: no text, tree, variable, or pending re-analysis.", "quantifier": "every state and every change list", "why_tests_cant": "must hold in every reachable state", "anchors": ["jinja-lsp/src/lsp_files.rs: did_change"]}
{"id": "C09", "title": "Documents are independent", "statement": "Opening, changing, or saving one document never alters the stored text, parse tree, recorded variables or quick-fix list of any other document.", "quantifier": "every state, every pair of distinct document URIs, every message", "why_tests_cant": "frame property over all states and documents", "anchors": ["jinja-lsp/src/lsp_files.rs: did_open, did_change, did_save, add_variables, delete_variables"]}
{"id": "C10", "title": "Unsupported files are ignored", "statement": "Opening, saving, querying a document whose extension is not html, jinja, j2, rs or py has no effect and yields no answer; files with these extensions are classified as template or backend by their last extension only.", "quantifier": "every URI string and every state", "why_tests_cant": "the set of URIs is infinite", "anchors": ["jinja-lsp/src/config.rs: JinjaConfig::file_ext", "jinja-lsp/src/lsp_files.rs: did_open, did_save, completion, hover, goto_definition, code_action"]}
{"id": "C11", "title": "A definition's scope is its enclosing block", "statement": "In a template, each variable bound by for/with/macro/block/set is visible up to the start of the end tag of the block that encloses it (macro names and set targets: the block around them), or to the end of the document when there is none.", "quantifier": "every well-nested template of any depth and length", "why_tests_cant": "nesting depth and width are unbounded; scope bookkeeping errors appear only for particular nestings", "anchors": ["jinja-lsp-queries/src/search/definition.rs: JinjaDefinitions::check, fix_end, definition_query"]}
{"id": "C12", "title": "else/elif and block set do not disturb scopes", "statement": "Adding else/elif branches or a block-form set inside a block does not change the scope recorded for variables of the surrounding blocks.", "quantifier": "every template containing else, elif or endset", "why_tests_cant": "the failure needs an interaction between two unrelated constructs", "anchors": ["jinja-lsp-queries/src/search/definition.rs: check (\"scope\", \"endblock\", \"scope_end\")"]}
{"id": "C13", "title": "Both loop targets of a for are recorded", "statement": "For a loop with key and value targets, both names are recorded as definitions visible in the loop body.", "quantifier": "every template", "why_tests_cant": "universal over all token streams", "anchors": ["jinja-lsp-queries/src/search/definition.rs: Definition::from, check (\"id\")"]}
{"id": "C14", "title": "Recorded definitions come from the text", "statement": "Every definition the server records for a template carries the exact name and range of an identifier token of that template (or is the empty placeholder of a construct with no name).", "quantifier": "every token stream", "why_tests_cant": "universal over all token streams, including malformed ones", "anchors": ["jinja-lsp-queries/src/search/definition.rs: check, identifiers"]}
{"id": "C15", "title": "Analysis stops at the first syntax error and is unaffected by later text", "statement": "Definitions, variable uses, imports and backend variables computed for a document depend only on what precedes the first syntax error.", "quantifier": "every pair of token streams that agree before their first error", "why_tests_cant": "two-run (hyper) property", "anchors": ["jinja-lsp-queries/src/search/definition.rs", "jinja-lsp-queries/src/search/objects.rs", "jinja-lsp-queries/src/search/templates.rs", "jinja-lsp-queries/src/search/rust_identifiers.rs"]}
{"id": "C16", "title": "Binding constructs bind only their targets", "statement": "with and macro headers bind exactly the assigned names / parameters, not identifiers used in default or assigned expressions.", "quantifier": "every header", "why_tests_cant": "universal over headers", "anchors": ["jinja-lsp-queries/src/search/definition.rs: check (\"id\" in With/Macro)"]}
{"id": "C17", "title": "Variable uses are recognised exactly", "statement": "The variable uses reported for a template are the identifiers that are not attribute names after a dot and not reserved words, in document order; attribute names are attached to the use they belong to; identifiers directly after a pipe are marked as filters and the one after `is` as a test.", "quantifier": "every sequence of expressions", "why_tests_cant": "unbounded token sequences", "anchors": ["jinja-lsp-queries/src/search/objects.rs: check, build_object, objects_query"]}
{"id": "C18", "title": "Cursor queries over expressions never fail arithmetically", "statement": "Completion, hover, goto-definition and code-action requests never hit an arithmetic underflow or out-of-range access while analysing expressions at the cursor.", "quantifier": "every token stream, cursor position and build profile", "why_tests_cant": "depends on rare cursor/token coincidences", "anchors": ["jinja-lsp-queries/src/search/objects.rs: objects_query (my_id, len()-1)"]}
{"id": "C19", "title": "Completion kind matches the cursor context", "statement": "Filter completion is offered only directly at/after a pipe; identifier completion only inside an expression; test completion only after `is` on the same line; otherwise none of these is offered.", "quantifier": "every token stream and cursor", "why_tests_cant": "unbounded contexts", "anchors": ["jinja-lsp-queries/src/search/objects.rs: completion, in_pipe, in_expr, is_test"]}
{"id": "C20", "title": "The completion prefix is the text typed so far", "statement": "The prefix used to filter completions is always a prefix of the name at the cursor and equals the characters between the start of the name and the cursor.", "quantifier": "every identifier and cursor position inside it", "why_tests_cant": "off-by-one errors at boundaries over all columns", "anchors": ["jinja-lsp-queries/src/search/mod.rs: completion_start"]}
{"id": "C21", "title": "The template name under the cursor is found", "statement": "With the cursor inside the string of an extends/include/import/from statement, goto-definition and template completion operate on exactly that template name (quotes removed).", "quantifier": "every sequence of import statements and every cursor inside one of the strings", "why_tests_cant": "unbounded statement sequences", "anchors": ["jinja-lsp-queries/src/search/templates.rs: check, in_template, get_identifier, templates_query"]}
{"id": "C22", "title": "Backend variables are exactly the declared ones", "statement": "The backend variables recorded for a source file are the context keys and registered globals/filters/functions that precede the first syntax error, in order, with quotes removed, all marked as backend variables.", "quantifier": "every token stream", "why_tests_cant": "unbounded streams", "anchors": ["jinja-lsp-queries/src/search/rust_identifiers.rs"]}
{"id": "C23", "title": "Backend template references", "statement": "A template reference is recorded for a backend file only for a string argument following a render_jinja/get_template call, at most one per call.", "quantifier": "every token stream", "why_tests_cant": "unbounded streams", "anchors": ["jinja-lsp-queries/src/search/rust_template_completion.rs"]}
{"id": "C24", "title": "Snippets are offered exactly in broken statements", "statement": "Snippet completion is offered exactly when a syntax-error region starting at or before the cursor (plus two columns) exists and the cursor is not past the end of the first such region.", "quantifier": "every token stream and cursor", "why_tests_cant": "unbounded streams", "anchors": ["jinja-lsp-queries/src/search/snippets_completion.rs", "jinja-lsp/src/lsp_files.rs: completion"]}
{"id": "C25", "title": "Undefined-variable diagnostics are exact", "statement": "Saving or opening a template reports a variable use exactly when no definition of that name in the file is in scope at the use; it is a warning if the name is defined out of scope in the file or nowhere, and an information if it is defined only elsewhere; filters and tests are never reported.", "quantifier": "every template analysis, every set of workspace variables, every hash iteration order", "why_tests_cant": "cross product of uses, definitions, scopes and files; hash order is nondeterministic", "anchors": ["jinja-lsp-queries/src/lsp_helper.rs: search_errors"]}
{"id": "C26", "title": "hide_undefined silences only variable diagnostics", "statement": "With hide_undefined set, no undefined or defined-elsewhere diagnostic is produced for any template, while missing-template diagnostics are unchanged.", "quantifier": "every template, workspace and file system", "why_tests_cant": "universal over workspaces", "anchors": ["jinja-lsp-queries/src/lsp_helper.rs: search_errors (ignore_globals)", "jinja-lsp/src/config.rs: walkdir"]}
{"id": "C27", "title": "\"Defined in other file\" is truthful", "statement": "When a use is reported as defined in another file, some other file really defines that name.", "quantifier": "every workspace", "why_tests_cant": "requires searching all workspaces", "anchors": ["jinja-lsp-queries/src/lsp_helper.rs: search_errors (DefinedSomewhere)"]}
{"id": "C28", "title": "Missing-template diagnostics are exact", "statement": "A template reference is reported as not found exactly when its name is empty (templates only) or the path templates-directory/name does not exist.", "quantifier": "every document, template name and file system state", "why_tests_cant": "universal over names and file systems", "anchors": ["jinja-lsp-queries/src/lsp_helper.rs: search_errors, path_items"]}
{"id": "C29", "title": "Template names cannot escape by being absolute", "statement": "The path checked for a template name is always the templates directory followed by the name's components; a leading slash never makes it an absolute lookup.", "quantifier": "every templates directory and template name", "why_tests_cant": "infinite set of names", "anchors": ["jinja-lsp-queries/src/lsp_helper.rs: path_items"]}
{"id": "C30", "title": "Goto-definition and diagnostics agree on template files", "statement": "If a template reference is not reported as missing, goto-definition on it opens the very file whose existence was checked.", "quantifier": "every template name and file system", "why_tests_cant": "relation between two features over all names", "anchors": ["jinja-lsp/src/lsp_files.rs: goto_definition", "jinja-lsp-queries/src/lsp_helper.rs: search_errors"]}
{"id": "C31", "title": "Saving always refreshes diagnostics", "statement": "Every save of a supported, known document publishes a diagnostics list for exactly that document (possibly empty), so diagnostics from earlier versions never linger after a save.", "quantifier": "every state", "why_tests_cant": "universal over states", "anchors": ["jinja-lsp/src/lsp_files.rs: did_save", "jinja-lsp/src/channels/diagnostics.rs"]}
{"id": "C32", "title": "Opening a document publishes its diagnostics", "statement": "Every didOpen of a supported document publishes a diagnostics list for that document.", "quantifier": "every state and text", "why_tests_cant": "universal over states and texts", "anchors": ["jinja-lsp/src/lsp_files.rs: did_open"]}
{"id": "C33", "title": "A syntax error does not erase what is known", "statement": "A variable defined and in scope is not reported as undefined merely because the file contains a syntax error somewhere after its use.", "quantifier": "every template with a syntax error", "why_tests_cant": "interaction between features", "anchors": ["jinja-lsp/src/lsp_files.rs: did_save, delete_variables, add_variables", "jinja-lsp-queries/src/lsp_helper.rs: search_errors"]}
{"id": "C34", "title": "Published diagnostics are faithful", "statement": "Each published diagnostic has the range of the reported token, source jinja-lsp, and the severity and message of its category; nothing is dropped or duplicated between analysis and publication.", "quantifier": "every analysis result", "why_tests_cant": "universal over results", "anchors": ["jinja-lsp/src/channels/diagnostics.rs: diagnostics_task", "jinja-lsp-queries/src/lsp_helper.rs: create_diagnostic", "jinja-lsp-queries/src/tree_builder.rs"]}
{"id": "C35", "title": "Goto-definition picks the latest visible definition", "statement": "With the cursor on a variable that has definitions in the same file starting at or before the cursor and whose scope includes the cursor, goto-definition returns one location in this file: that of such a definition with the greatest start position.", "quantifier": "every set of recorded definitions and cursor position", "why_tests_cant": "shadowing patterns are unbounded", "anchors": ["jinja-lsp/src/lsp_files.rs: goto_definition", "jinja-lsp-queries/src/search/mod.rs: Identifier (Ord)"]}
{"id": "C36", "title": "Cross-file goto-definition is exact", "statement": "When there is no local definition and no template under the cursor, goto-definition returns exactly the variables of all other files whose name's first dotted segment is the identifier, irrespective of hash order.", "quantifier": "every workspace and hash iteration order", "why_tests_cant": "nondeterministic iteration order", "anchors": ["jinja-lsp/src/lsp_files.rs: goto_definition"]}
{"id": "C37", "title": "Goto-definition never crashes on a workspace entry", "statement": "Goto-definition terminates normally whatever entries the workspace variable table contains.", "quantifier": "every workspace", "why_tests_cant": "the crashing entry depends on the client's data", "anchors": ["jinja-lsp/src/lsp_files.rs: goto_definition (Url::parse(..).unwrap())", "jinja-lsp-nodejs/src/lib.rs: save_link_hint"]}
{"id": "C38", "title": "Variable completion is sound and complete", "statement": "Identifier completion in a template offers every variable of the file (except blocks and template names) whose definition ends at or before the cursor and whose scope includes the cursor, each name once, and offers no other variable of the file.", "quantifier": "every set of recorded definitions and cursor", "why_tests_cant": "unbounded sets", "anchors": ["jinja-lsp/src/lsp_files.rs: read_variables"]}
{"id": "C39", "title": "Backend variables in completion", "statement": "Identifier completion offers every backend variable of the workspace; suggestions are free of duplicates and, when a prefix was typed, all start with it.", "quantifier": "every workspace and prefix", "why_tests_cant": "unbounded workspaces", "anchors": ["jinja-lsp/src/lsp_files.rs: read_variables"]}
{"id": "C40", "title": "Accepting a variable completion inserts the variable", "statement": "Applying the edits of an accepted identifier completion (with typed prefix) to the document replaces the incomplete identifier by the full variable name and changes nothing else.", "quantifier": "every document, range and client kind", "why_tests_cant": "universal over texts and clients", "anchors": ["jinja-lsp/src/lsp_files.rs: read_variables (text_edit, additional_text_edits)"]}
{"id": "C41", "title": "Template completion offers the right names", "statement": "Each template completion item's label is the template's path relative to the templates directory, and accepting it puts the quoted label in place of the string.", "quantifier": "every templates directory and template URI", "why_tests_cant": "string splitting misbehaves only for particular directory names", "anchors": ["jinja-lsp/src/lsp_files.rs: read_templates"]}
{"id": "C42", "title": "Template completion is complete", "statement": "Every known template whose URI contains the typed prefix is offered.", "quantifier": "every set of known templates", "why_tests_cant": "one unusual template can affect all others", "anchors": ["jinja-lsp/src/lsp_files.rs: read_templates (parts.next()?)"]}
{"id": "C43", "title": "Hover shows the kind of the visible definition", "statement": "Hovering a variable shows the kind of the latest definition of that name in the file that ends before it and is in scope; otherwise `Backend variable` exactly when another file has a variable whose first segment is that name; otherwise nothing \u2014 irrespective of hash order.", "quantifier": "every workspace, variable and position", "why_tests_cant": "shadowing and hash order", "anchors": ["jinja-lsp/src/lsp_files.rs: data_type, hover", "jinja-lsp/src/channels/lsp.rs: Hover"]}
{"id": "C44", "title": "Hover over filters and tests shows their own documentation", "statement": "Hovering a filter (test) shows the documentation entry of that very name and nothing when the name is unknown; each documented name has exactly one entry.", "quantifier": "every name", "why_tests_cant": "universal over names", "anchors": ["jinja-lsp/src/channels/lsp.rs: Hover", "jinja-lsp/src/filter/mod.rs", "jinja-lsp/src/template_tests/mod.rs"]}
{"id": "C45", "title": "Document symbols mirror the recorded definitions", "statement": "documentSymbol returns one symbol per recorded definition, in order, with its name, kind and range.", "quantifier": "every state", "why_tests_cant": "universal over states", "anchors": ["jinja-lsp/src/lsp_files.rs: document_symbols"]}
{"id": "C46", "title": "Quick fixes match missing-template diagnostics", "statement": "After diagnostics for a document are published and processed, a code-action request at a position inside a reported missing template name offers to create that template, and outside all of them never does.", "quantifier": "every analysis result and position", "why_tests_cant": "round trip through two tasks, over all positions", "anchors": ["jinja-lsp/src/channels/diagnostics.rs", "jinja-lsp/src/lsp_files.rs: add_code_actions, code_action"]}
{"id": "C47", "title": "The quick fix creates the file whose absence was reported", "statement": "The file created by the missing-template quick fix is the canonical templates directory followed by the same components that the diagnostic looked up, is never an overwrite, and each use schedules one re-analysis of the document.", "quantifier": "every template name and templates directory", "why_tests_cant": "relation between two features over all names", "anchors": ["jinja-lsp/src/lsp_files.rs: process_code_actions", "jinja-lsp-queries/src/lsp_helper.rs: path_items"]}
{"id": "C48", "title": "Results do not depend on hash iteration order", "statement": "Diagnostics, hover type, goto-definition and completion results are the same up to ordering for every iteration order of the internal hash tables.", "quantifier": "every pair of iteration orders", "why_tests_cant": "iteration order is randomised per process; tests see one order per run", "anchors": ["jinja-lsp/src/lsp_files.rs", "jinja-lsp-queries/src/lsp_helper.rs"]}
{"id": "C49", "title": "Requests do not change the workspace", "statement": "completion, hover, goto-definition, code-action and document-symbol requests leave all documents, trees, variables and configuration unchanged.", "quantifier": "every state and request", "why_tests_cant": "universal over states", "anchors": ["jinja-lsp/src/channels/lsp.rs: lsp_task"]}
{"id": "C50", "title": "Reset rebuilds from disk and configuration", "statement": "After a (re)initialisation the workspace is a function of configuration and disk contents only; text of documents open in the editor is preserved.", "quantifier": "every history before the reset", "why_tests_cant": "two-history property", "anchors": ["jinja-lsp/src/channels/lsp.rs: Initialized, ExecuteCommand, DidChangeConfiguration", "jinja-lsp/src/config.rs: walkdir"]}
{"id": "C51", "title": "Failed initialisation leaves the workspace untouched", "statement": "If the backend language is unsupported or any configured directory cannot be walked, the previous workspace, including all open documents, stays exactly as it was and no diagnostics are published.", "quantifier": "every configuration, disk and prior state", "why_tests_cant": "failure can occur at any entry of the walk", "anchors": ["jinja-lsp/src/channels/lsp.rs: Initialized", "jinja-lsp/src/config.rs: walkdir"]}
{"id": "C52", "title": "Configuration precedence", "statement": "Client-supplied options win over project files; among project files the first of pyproject.toml, Cargo.toml, jinja-lsp.toml that exists, is non-empty and contains a valid section wins; an invalid later configuration message never discards a valid one.", "quantifier": "every combination of present/absent/invalid sources and message history", "why_tests_cant": "combinatorial and history dependent", "anchors": ["jinja-lsp/src/config.rs: search_config", "jinja-lsp/src/channels/lsp.rs: Initialize, DidChangeConfiguration"]}
{"id": "C53", "title": "Message queues are bounded and never deadlock", "statement": "The worker and diagnostics queues never exceed their capacities and the server never reaches a state in which neither task can ever make progress again.", "quantifier": "every schedule of client messages, timers and task steps", "why_tests_cant": "deadlock needs a particular schedule filling both queues", "anchors": ["jinja-lsp/src/backend.rs: _new", "jinja-lsp/src/channels/lsp.rs", "jinja-lsp/src/channels/diagnostics.rs"]}
{"id": "C54", "title": "Closing a document keeps it available", "statement": "didClose changes nothing: the document's variables keep contributing to diagnostics and completion of other files.", "quantifier": "every state", "why_tests_cant": "universal over states", "anchors": ["jinja-lsp/src/backend.rs: did_close"]}
{"id": "C55", "title": "The VS Code flag survives resets", "statement": "Once the client identified itself as Visual Studio Code, every later (re)initialisation keeps the VS Code specific edit format; other clients never get it.", "quantifier": "every message history", "why_tests_cant": "history property", "anchors": ["jinja-lsp/src/channels/lsp.rs: Initialize, Initialized"]}
{"id": "C56", "title": "Startup analyses every reachable source file once with the right language", "statement": "After a successful initialisation the set of documents held is exactly the readable supported files found under the templates and backend directories, each parsed with the grammar of its kind (python grammar exactly when lang is python), and diagnostics are published for template files only.", "quantifier": "every directory content and configuration", "why_tests_cant": "universal over directory contents", "anchors": ["jinja-lsp/src/config.rs: walkdir", "jinja-lsp/src/lsp_files.rs: read_file, read_trees"]}
{"id": "C57", "title": "Link hints are stored and removed as a unit", "statement": "saveLinkHint(h) makes exactly the hint's names available as variables under h, replacing earlier ones; removeTempLinkHint(h) removes them completely; other hints are untouched, in every call sequence.", "quantifier": "every sequence of calls", "why_tests_cant": "history property", "anchors": ["jinja-lsp-nodejs/src/lib.rs: add_link_hints, save_link_hint, remove_temp_link_hint"]}
{"id": "C58", "title": "Links are exact dotted-path matches", "statement": "addOne reports a link for a used variable path exactly when one of the currently saved temp hints has that same dotted path, once per matching hint, at the path's range shifted by the line offset.", "quantifier": "every content analysis and hint list", "why_tests_cant": "string split/join equivalence over all names", "anchors": ["jinja-lsp-nodejs/src/lib.rs: add_one, ActionObject"]}
{"id": "C59", "title": "Embedded line offsets translate consistently", "statement": "For embedded templates, request positions are shifted down and result ranges shifted up by the same line offset, so results are in the host document's coordinates; positions above the offset are rejected.", "quantifier": "every offset and position", "why_tests_cant": "arithmetic over all u32 values", "anchors": ["jinja-lsp-nodejs/src/lib.rs: hover, complete, goto_definition, get_variables"]}
{"id": "C60", "title": "deleteAll removes everything of a file", "statement": "After deleteAll(f) no document, tree, or variable whose identifier contains f remains; all others are untouched.", "quantifier": "every state", "why_tests_cant": "universal over states", "anchors": ["jinja-lsp/src/lsp_files.rs: delete_documents_with_id", "jinja-lsp-nodejs/src/lib.rs: delete_all"]}
{"id": "C61", "title": "Saved hints appear in identifier completion", "statement": "Hints saved with the default hint name are offered, with their description, by complete() in identifier position.", "quantifier": "every call sequence", "why_tests_cant": "history property", "anchors": ["jinja-lsp-nodejs/src/lib.rs: complete, save_link_hint"]}
{"id": "C62", "title": "Python attribute paths are reassembled", "statement": "readPythonIds yields for each dotted attribute expression one identifier whose name is its parts joined by dots in order, spanning from its first to its last part, independent of hash order.", "quantifier": "every token stream and hash order", "why_tests_cant": "nondeterministic order, unbounded streams", "anchors": ["jinja-lsp-queries/src/search/python_identifiers.rs"]}
{"id": "C63", "title": "Cloned workspaces behave the same", "statement": "A clone of the workspace answers every query as the original does.", "quantifier": "every state", "why_tests_cant": "universal over states", "anchors": ["jinja-lsp/src/lsp_files.rs: impl Clone for LspFiles", "jinja-lsp-queries/src/parsers.rs", "jinja-lsp-queries/src/search/queries.rs"]}
{"id": "C64", "title": "Exact scope rule for arbitrary tag sequences", "statement": "For every sequence of template tags, well-nested or not, the definitions recorded (name, range, kind, end of visibility) are those of bracket matching in which every block-opening tag, every else/elif and every inline if/else is an opening bracket and every end tag, also endset, a closing one; unmatched openings stay visible to the end of the document.", "quantifier": "every finite sequence of tags of any nesting", "why_tests_cant": "ranges over all finite tag sequences, including ill-nested ones", "anchors": ["jinja-lsp-queries/src/search/definition.rs:JinjaDefinitions::check", "jinja-lsp-queries/src/search/definition.rs:fix_end", "jinja-lsp-queries/src/search/queries.rs:DEFINITIONS"]}
{"id": "C65", "title": "Diagnostics are published in the order of the analyses", "statement": "In every interleaving of the worker, the diagnostics task, the client and expiring delays, as long as the diagnostics task lives: the analysis results computed so far are, in order, those already published, those queued and those about to be queued; what has been published is exactly one list per file of each published result (positions below 2^32). Hence, when the queues are empty, the list a client shows for a file whose name is a normal URL is that of the last analysis concerning the file.", "quantifier": "every execution of the two tasks of any length, every interleaving, every hash order", "why_tests_cant": "ranges over all interleavings of two tasks and unboundedly many messages", "anchors": ["jinja-lsp/src/main.rs", "jinja-lsp/src/backend.rs:Backend::_new", "jinja-lsp/src/channels/diagnostics.rs:diagnostics_task", "jinja-lsp/src/channels/lsp.rs:lsp_task"]}
{"id": "C66", "title": "Concurrency is invisible: every execution is a sequential run", "statement": "In every interleaving, as long as the worker lives, its state is that of a sequential server that processed some messages one after the other; these messages followed by the queued ones are exactly the messages of the client, each once and in the order sent, interleaved with messages the server sent to itself (initialized, delayed saves, code actions). The states may differ only in which delays have expired.", "quantifier": "every execution of any length, every interleaving", "why_tests_cant": "ranges over all interleavings and all message sequences", "anchors": ["jinja-lsp/src/main.rs", "jinja-lsp/src/channels/lsp.rs:lsp_task", "jinja-lsp/src/channels/diagnostics.rs:diagnostics_task"]}
{"id": "C67", "title": "Only a change out of bounds can end a task", "statement": "If parsing never fails, tree nodes lie inside the text they were made from and absolute file URIs are valid URLs (in a debug build also: no operator starts a template, names stay on one line), and the client names documents by file:/// URIs, then in every interleaving both tasks stay alive for ever, unless at some moment the worker is about to process a document change it cannot apply to the text it holds; in that case it does end. A session without document changes never ends a task.", "quantifier": "every execution of any length, every interleaving, every sequence of client messages, every file system whose resolved paths are absolute and keep the class of a file", "why_tests_cant": "absence of panics over all message sequences, file contents and schedules", "anchors": ["jinja-lsp/src/channels/lsp.rs:lsp_task", "jinja-lsp/src/channels/diagnostics.rs:diagnostics_task", "jinja-lsp/src/lsp_files.rs:LspFiles"]}
{"id": "C68", "title": "A session of plain edits never ends the server and keeps it in step", "statement": "Under the assumptions of C67, a client that opens documents, changes them only by forward edits between plain positions of the text it shows (no non-ASCII, VT or FF before them, column inside the line), saves them and sends any requests, but sends neither reset_variables nor a new configuration and initialises before opening, never ends a task. At every moment the server holds texts the editor showed earlier and its queue leads from there to the texts shown now; with an empty queue it holds exactly the text shown, for every supported document. With a reset the claim is false: a valid edit then ends the server.", "quantifier": "every execution of any length, every interleaving, all texts and edits", "why_tests_cant": "ranges over all editing sessions and schedules", "anchors": ["jinja-lsp/src/channels/lsp.rs:lsp_task", "jinja-lsp/src/lsp_files.rs:LspFiles::did_change", "jinja-lsp/src/lsp_files.rs:LspFiles::did_open", "jinja-lsp/src/channels/lsp.rs:walkdir"]}
{"id": "C69", "title": "When typing has stopped and nothing is left to do, the list shown is that of the current text", "statement": "Under the assumptions of C68, for a client that edits documents by plain forward edits in a loaded workspace, requests no quick fixes and resets nothing: once both queues are empty, no message is in flight and no delayed re-analysis is pending, the last diagnostics published for the document changed last are exactly those computed from the text the editor shows, whatever the interleaving and however the re-analyses were cancelled and restarted. For a well-nested template these are: each undefined name and each missing template, once per occurrence. Before the workspace was loaded the claim is false.", "quantifier": "every execution of any length, every interleaving, all texts and edits", "why_tests_cant": "ranges over all editing sessions, timings of the delayed re-analysis and schedules of two tasks", "anchors": ["jinja-lsp/src/channels/lsp.rs:lsp_task", "jinja-lsp/src/channels/diagnostics.rs:diagnostics_task", "jinja-lsp/src/lsp_files.rs:LspFiles::did_change", "jinja-lsp/src/lsp_files.rs:LspFiles::did_save"]}
{"id": "C70", "title": "Symbols follow from the syntax tree", "statement": "If the syntax tree of an opened template consists of text, expressions and statements without error nodes, then documentSymbol lists exactly the bindings that its tags introduce (set, for, with, macro, block), in document order, with the kinds and extents of the tokens; numerals and non-structural keywords contribute nothing.", "quantifier": "all syntax trees that read as a sequence of tags, all texts and states", "why_tests_cant": "ranges over all syntax trees; the queries are interpreted, not run", "anchors": ["jinja-lsp-queries/src/search/queries.rs:DEFINITIONS", "jinja-lsp-queries/src/search/definition.rs:definition_query", "jinja-lsp/src/lsp_files.rs:LspFiles::document_symbols"]}
{"id": "C71", "title": "Diagnostics follow from the syntax tree", "statement": "If the syntax tree of a template reads as a sequence of tags, of uses of names and of references to other templates, then opening or saving it publishes exactly: a warning for each use that no binding in scope, no other definition and no other file explains, and an error for each reference that is not found.", "quantifier": "all such syntax trees, all states and file systems", "why_tests_cant": "composes three queries, three analyses and path lookup over all syntax trees", "anchors": ["jinja-lsp-queries/src/search/queries.rs:OBJECTS", "jinja-lsp-queries/src/search/queries.rs:JINJA_IMPORTS", "jinja-lsp/src/lsp_files.rs:LspFiles::read_tree"]}
{"id": "C72", "title": "A template is analysed if and only if its syntax tree has no error node", "statement": "Opening or saving a template whose syntax tree contains an error node anywhere, at any depth, records nothing for it and empties what was recorded; without an error node the findings of the definitions query are recorded.", "quantifier": "all syntax trees, states and messages", "why_tests_cant": "error nodes may sit anywhere in trees of any size", "anchors": ["jinja-lsp-queries/src/search/queries.rs:JINJA_SNIPPETS", "jinja-lsp-queries/src/search/snippets_completion.rs:snippets_query", "jinja-lsp/src/lsp_files.rs:LspFiles::read_tree"]}
{"id": "C73", "title": "A number is never a name", "statement": "Whatever the syntax tree, with or without errors, no name consisting of digits only is listed by documentSymbol or treated as a use of a name or of an attribute.", "quantifier": "all syntax trees, texts and states", "why_tests_cant": "ranges over all syntax trees, including broken ones", "anchors": ["jinja-lsp-queries/src/search/queries.rs:DEFINITIONS", "jinja-lsp-queries/src/search/queries.rs:OBJECTS"]}
{"id": "C74", "title": "Exactly which names a Rust file declares", "statement": "The backend variables recorded when a Rust file without syntax error is opened are exactly the identifiers inside the brackets of macros, except the word context, and the string arguments that follow a jinja.m whose method name contains add_global, add_filter or add_function (without quotes), with their extents.", "quantifier": "all syntax trees and states", "why_tests_cant": "exact characterisation over all source files", "anchors": ["jinja-lsp-queries/src/search/queries.rs:RUST_DEFINITIONS", "jinja-lsp-queries/src/search/rust_identifiers.rs:backend_definition_query"]}
{"id": "C75", "title": "A Rust file declares the keys of context! and the registered names, nothing else", "statement": "When a Rust file without syntax error is opened, every key of a context! macro and every name registered with jinja.add_* is recorded as a backend variable, and nothing else is.", "quantifier": "all syntax trees and states", "why_tests_cant": "quantifies over all source files", "anchors": ["jinja-lsp-queries/src/search/queries.rs:RUST_DEFINITIONS"]}
{"id": "C76", "title": "Exactly which names a Python file declares", "statement": "The backend variables recorded when a Python file without syntax error is opened are exactly the keyword arguments of render and render_template, called directly or on a plain name, and the strings that subscript globals or filters of something that is not a plain name other than jinja_env.", "quantifier": "all syntax trees and states", "why_tests_cant": "exact characterisation over all source files", "anchors": ["jinja-lsp-queries/src/search/queries.rs:PYTHON_DEFINITIONS", "jinja-lsp-queries/src/search/rust_identifiers.rs:backend_definition_query"]}
{"id": "C77", "title": "A Python file declares what it passes to templates and puts into the tables of jinja_env, nothing else", "statement": "When a Python file without syntax error is opened, the keyword arguments of every call of render or render_template and the keys of jinja_env.globals and jinja_env.filters are recorded as backend variables, and nothing else is.", "quantifier": "all syntax trees and states", "why_tests_cant": "quantifies over all source files", "anchors": ["jinja-lsp-queries/src/search/queries.rs:PYTHON_DEFINITIONS"]}
{"id": "C78", "title": "Exactly which templates a backend file refers to", "statement": "The template names recorded when a Rust or Python file is opened are exactly the first strings among the arguments of calls of render_jinja and get_template, as functions or methods, without their quotes.", "quantifier": "all syntax trees and states", "why_tests_cant": "exact characterisation over all source files", "anchors": ["jinja-lsp-queries/src/search/queries.rs:RUST_TEMPLATES", "jinja-lsp-queries/src/search/queries.rs:PYTHON_TEMPLATES", "jinja-lsp-queries/src/search/rust_template_completion.rs:backend_templates_query"]}
{"id": "C79", "title": "An answer is about the texts shown when asking", "statement": "In every session of an editor that makes plain edits, under every interleaving of the client, the two tasks and the delays, each request is answered once, in the order of asking, from the texts the editor showed at the moment it put the request into the queue (for all supported documents, with syntax trees of exactly these texts), no matter what was typed since or waits in front of it; and the definitions it refers to are those of these texts.", "quantifier": "all sessions, interleavings, documents, edits and requests", "why_tests_cant": "a race between typing, queued requests and delayed analyses; quantifies over all schedules", "anchors": ["jinja-lsp/src/channels/lsp.rs:lsp_task", "jinja-lsp/src/backend.rs", "jinja-lsp/src/lsp_files.rs:did_change"]}
{"id": "C80", "title": "What is announced is served, what is needed is announced", "statement": "Every call a client may make according to the capabilities the server announced is carried out: requests are answered with an answer of their kind, notifications and commands reach the worker and have their effect; and a client that keeps to the announced capabilities gets diagnostics and answers for every document it edits.", "quantifier": "all states, worlds, sessions of conforming clients", "why_tests_cant": "quantifies over all sessions of all conforming clients; tests call the handlers directly", "anchors": ["jinja-lsp/src/channels/lsp.rs:lsp_task", "jinja-lsp/src/backend.rs", "jinja-lsp/src/lsp_files.rs:completion"]}
{"id": "C81", "title": "Re-used syntax trees stand for the text", "statement": "Whenever the parser is given an old syntax tree together with a text, that tree was made from this very text, or it was made from an earlier text and told every region in which the text was changed since (bytes, rows and columns of start, old end and new end), by the same grammar. Hence, with a parser that keeps the promise of incremental parsing, no answer, message or state depends on the fact that trees are re-used.", "quantifier": "all histories of messages, file systems, documents, changes", "why_tests_cant": "quantifies over histories of edits; stale re-use shows up only for particular combinations of old and new text in the incremental parser", "anchors": ["jinja-lsp/src/lsp_files.rs:add_tree", "jinja-lsp/src/lsp_files.rs:input_edit", "jinja-lsp/src/lsp_files.rs:did_change", "jinja-lsp-queries/src/to_input_edit.rs"]}
{"id": "C82", "title": "What the editor shows at rest follows from the syntax tree of the text in it", "statement": "When typing in a template has stopped and nothing is left to do (as in C69), the server holds the text shown in the editor and a syntax tree of it. If this tree reads as a sequence of tags, uses of names and references, then the list published last for the document consists of exactly the uses that no binding in scope, no other definition and no other file explains, in order, and the references to templates that are not found; and documentSymbol lists exactly the bindings of the tags.", "quantifier": "every execution of any length and every interleaving, all syntax trees of that form", "why_tests_cant": "ranges over all editing sessions, schedules, delays and all syntax trees", "anchors": ["jinja-lsp/src/channels/lsp.rs:lsp_task", "jinja-lsp/src/lsp_files.rs:LspFiles::read_tree", "jinja-lsp-queries/src/search/queries.rs:DEFINITIONS", "jinja-lsp-queries/src/search/queries.rs:OBJECTS"]}
{"id": "C83", "title": "Goto-definition and hover follow from the syntax tree", "statement": "Let a template have been analysed (opened, saved, or at rest after typing) and let its syntax tree read as tags and uses of names. With the cursor inside a name that is used: goto-definition leads to the binding of that name that starts last among those that reach the cursor, and if there is none, to exactly the entries of all other files whose first dotted segment is the name; hovering a variable shows the kind of the binding in force that starts last, otherwise whether another file has such an entry; hovering a filter or test shows its documentation.", "quantifier": "all such syntax trees, cursor positions, states and hash orders", "why_tests_cant": "composes two queries, the scope analysis, the cursor query and the look-up over all syntax trees and cursors", "anchors": ["jinja-lsp/src/lsp_files.rs:LspFiles::goto_definition", "jinja-lsp/src/lsp_files.rs:LspFiles::hover", "jinja-lsp-queries/src/search/objects.rs:objects_query", "jinja-lsp-queries/src/search/queries.rs:OBJECTS"]}
{"id": "C84", "title": "Names of templates lead to their files, in terms of the syntax tree", "statement": "Let the syntax tree of a template read as a sequence of extends, include, from and import statements. With the cursor strictly inside the quotes of a name of one of them, goto-definition opens the file of that name below the templates directory; if that file cannot be found, it leads to exactly the entries of other files whose first dotted segment is empty. Once typing has stopped and nothing is left to do, every name shown without a 'does not exist' marker (and written as a plain relative path) leads to its file.", "quantifier": "all such syntax trees, cursor positions, states, file systems, hash orders and executions", "why_tests_cant": "composes two queries, the cursor query, the file system and the diagnostics over all syntax trees, cursors and executions", "anchors": ["jinja-lsp/src/lsp_files.rs:LspFiles::goto_definition", "jinja-lsp-queries/src/search/templates.rs:templates_query", "jinja-lsp-queries/src/search/queries.rs:IMPORTS", "jinja-lsp-queries/src/search/objects.rs:objects_query"]}
{"id": "C85", "title": "Once typing has stopped, quick fixes are offered exactly where missing templates are shown", "statement": "Let typing have stopped and nothing be left to do, in any interleaving of the two server tasks. Then a code-action request in the document offers to create a template exactly if the diagnostics shown for the document report a missing template at the cursor, and it creates one reported there. In terms of the syntax tree: with the cursor strictly inside a name of an extends, include, from or import statement, the template of that name is created if it was absent at the last analysis or the name is empty, otherwise none.", "quantifier": "all executions (interleavings, texts, file systems, hash orders), cursor positions and syntax trees", "why_tests_cant": "the fixes travel through two queues and are cleared by every analysis; all interleavings have to be considered", "anchors": ["jinja-lsp/src/channels/diagnostics.rs:diagnostics_task", "jinja-lsp/src/channels/lsp.rs:lsp_task", "jinja-lsp/src/lsp_files.rs:LspFiles::code_action", "jinja-lsp/src/lsp_files.rs:LspFiles::process_code_actions"]}
{"id": "C86", "title": "What completion offers, in terms of the syntax tree", "statement": "For a completion request (invoked or by a trigger character) in a template: (a) if its errors are not nested, snippets are offered exactly with the cursor in the first error of the syntax tree or at most two columns before it. In a template without errors: (b) at a pipe and beside all names, all filters; (c) inside {{ }}, beside names and pipes, the names bound there, each once, besides backend variables; (d) inside {{ }} after the characters t of a name in use, the same restricted to names beginning with t, whether the name is that of a variable, a filter or a test; (e) outside {{ }} after `is` on its line with only reserved words since, all tests; (f) inside the quotes of a template name, the known templates whose URI contains what is before the cursor less one character (the whole name after the first character); (g) elsewhere nothing.", "quantifier": "all syntax trees, template texts, server states, cursor positions, hash orders", "why_tests_cant": "which list is offered depends on the position of the cursor relative to all nodes of an arbitrary tree", "anchors": ["jinja-lsp/src/lsp_files.rs:LspFiles::completion", "jinja-lsp-queries/src/search/objects.rs:JinjaObjects::completion", "jinja-lsp-queries/src/search/snippets_completion.rs:snippets_query", "jinja-lsp/src/channels/lsp.rs:lsp_task"]}
{"id": "C87", "title": "Left alone, the server comes to rest and has answered everything", "statement": "If the client sends nothing more, then for every schedule of the two tasks and of the delayed analyses, every file system and every hash order: (a) at most 7 steps are taken per message that is queued, being sent or delayed, and one more; (b) with both tasks alive the end is rest (queues empty, nothing being sent, no delay running) or one of the deadlocks of C53; (c) with at most 50 messages under way (queued, being sent or delayed) no deadlock is reached; 51 are too many. Hence in a session of plain edits (C68), once the client is silent with at most 50 messages under way, (d) the process inevitably comes to rest with both tasks alive, (e) every message the client sent is inevitably answered, in order, (f) after the last change of a supported document in a loaded workspace, what the editor shows for it inevitably becomes the diagnostics of its current text (results small enough for 32 bits).", "quantifier": "all states, sessions, schedules, file systems, hash orders, texts", "why_tests_cant": "inevitability over all schedules of concurrent tasks; a test observes one", "anchors": ["jinja-lsp/src/channels/lsp.rs:lsp_task", "jinja-lsp/src/channels/diagnostics.rs:diagnostics_task", "jinja-lsp/src/lsp_files.rs:LspFiles::did_change", "jinja-lsp/src/lsp_files.rs:LspFiles::process_code_actions"]}
{"id": "C88", "title": "How old the shown diagnostics of a document can be", "statement": "In a session of plain edits (C68), in every interleaving, when both queues are empty and nothing is being sent: (a) the list shown for a supported document that was opened and later saved is the analysis of a text the editor showed for it at its last save or later; (b) if the document was neither changed nor opened again since that save, it is an analysis of the text the editor shows now, whatever was done to other documents. Not every document is kept up to date: (c) a change of a second document cancels the delayed analysis of the first, which then shows outdated diagnostics at rest, until it is saved or changed again; (d) the list is not refreshed when another document changes the names it defines.", "quantifier": "all sessions, schedules, file systems, hash orders, texts", "why_tests_cant": "ranges over all interleavings of edits, saves, expiring delays and two tasks", "anchors": ["jinja-lsp/src/lsp_files.rs:LspFiles::did_change", "jinja-lsp/src/lsp_files.rs:LspFiles::did_save", "jinja-lsp/src/channels/lsp.rs:lsp_task", "jinja-lsp/src/channels/diagnostics.rs:diagnostics_task"]}
{"id": "C89", "title": "What is answered follows from the texts, not from the history", "statement": "If two servers were led by any two histories to the same texts, under the same settings, with every change followed by a save (or opening) of its document and no syntax error in any template held, then from then on every sequence of messages other than quick fix requests is answered alike and yields the same analysis results, up to ordering, for ever. In particular a server that has been through many edits is as good as one that was started in the same way and told of the present texts only. This holds for whole executions with the diagnostics task, delays and the server's own messages interleaved. Neither condition can be dropped: (a) with a syntax error the answers depend on whether the document was sound before; (b) names defined by a change are unknown before the save.", "quantifier": "all pairs of histories, all further messages, schedules, file systems, hash orders, parsers for which incremental parsing is indistinguishable from parsing anew", "why_tests_cant": "relates all pairs of histories that end in the same texts", "anchors": ["jinja-lsp/src/lsp_files.rs:LspFiles::did_change", "jinja-lsp/src/lsp_files.rs:LspFiles::did_save", "jinja-lsp/src/lsp_files.rs:LspFiles::did_open", "jinja-lsp/src/lsp_files.rs:LspFiles::add_variables", "jinja-lsp/src/channels/lsp.rs:lsp_task"]}
{"id": "C90", "title": "Which dotted names are read from a Python file", "statement": "Reading the identifiers of a Python file yields, for every place where a node with parts starts, exactly one identifier: the texts of all parts whose parents start there, in document order, joined by dots, from that place to the end of the last part. Parts are the names directly in attribute expressions and the syntax errors. So a dotted name a.b.c is reported whole, once, with its extent, if no other part belongs to a node that starts where it starts; a file without attribute expressions and errors yields nothing. Deviations: (a) in a.b(c).d the name reported is a.b.d and a.b is not reported; (b) the text of a syntax error becomes part of an identifier.", "quantifier": "all syntax trees of Python files, all dotted names of any length at any place in them, all hash orders", "why_tests_cant": "all trees, names of any length at any depth, and all iteration orders of the table of groups", "anchors": ["jinja-lsp-queries/src/search/python_identifiers.rs", "jinja-lsp-queries/src/search/queries.rs:PYTHON_IDENTIFIERS", "jinja-lsp/src/lsp_files.rs:LspFiles::read_python_ids"]}
{"id": "C91", "title": "The number basic() of the Node API returns", "statement": "basic(content) never panics and returns nothing exactly if the text cannot be parsed. For a template that reads as well-formed expressions and statements it returns the number of uses of names (variables, filters, tests; a name with its attributes counts once), if that is below 2^31; from there up to 2^32 the number is negative. Whatever the tree, no more is counted than there are names. With a syntax error the number depends only on what precedes the first error.", "quantifier": "all texts and all syntax trees", "why_tests_cant": "all trees, and numbers of uses no test reaches", "anchors": ["jinja-lsp-nodejs/src/lib.rs:basic", "jinja-lsp-queries/src/search/objects.rs:objects_query"]}
{"id": "C92", "title": "Only the order of places and the identity of names matter", "statement": "If a template is rewritten by a consistent replacement of names, a move of the text that keeps the order of places (for example lines inserted at the top) and new node ids, then opening or saving it reports exactly the same uses of names and the same missing templates with the same severities, rewritten in the same way, and the document symbols are rewritten in the same way. In particular renaming a variable to a name that is not in use changes nothing in the reports but this name, and k lines inserted at the top move every report by k lines.", "quantifier": "for all syntax trees without error nodes, all injective replacements of names that leave reserved words and numerals alone, all strictly monotone moves, all server states, for didOpen and didSave", "why_tests_cant": "A test renames one variable in one file; that no comparison in the code looks at more than the order of positions and the equality of names (sentinel positions at the beginning of the file included) is a statement about all trees and all rewritings.", "anchors": ["jinja-lsp-queries/src/search/definition.rs:159-389", "jinja-lsp-queries/src/search/objects.rs:55-151", "jinja-lsp-queries/src/search/templates.rs:92-251", "jinja-lsp-queries/src/lsp_helper.rs:14-130", "jinja-lsp-queries/src/search/queries.rs:55-229"]}
{"id": "C93", "title": "Accepting a snippet completes the statement", "statement": "The items offered in a broken statement cover for, with, set, include, from, import, extends and if. Accepting one inserts its text at the cursor and changes nothing else, and directly after `{%` the result is a sequence of complete statements with every block closed, beginning with the statement named by the label, whatever the user types at the places to fill in.", "quantifier": "every text, cursor, client kind and filling of the placeholders", "why_tests_cant": "universal over texts, cursors and what is typed into the placeholders", "anchors": ["jinja-lsp-queries/src/search/snippets_completion.rs: snippets", "jinja-lsp/src/channels/lsp.rs: Completion (CompletionType::Snippets)", "jinja-lsp/src/lsp_files.rs: completion (range of the snippet)"]}
{"id": "C94", "title": "Hover in an embedded template", "statement": "Hovering over a variable of an embedded template shows the description of the hint saved under the default name for exactly that variable, and otherwise the kind of its definition and its name; hovering over a filter or a test shows its documentation. The range shown is that of the name in the host document.", "quantifier": "every session of the Node API, template, offset and cursor", "why_tests_cant": "universal over the histories of hint calls and templates and over the offsets of the templates in the host document", "anchors": ["jinja-lsp-nodejs/src/lib.rs: hover", "jinja-lsp-nodejs/src/lib.rs: add_link_hints, save_link_hint, remove_temp_link_hint"]}
{"id": "C95", "title": "Inside an expression help is available at every position", "statement": "In a template without syntax errors, with the cursor anywhere inside {{ }} - also directly before a name - completion offers something (all filters at a pipe, names elsewhere) and, where no template is missing, a code-action request offers exactly the two commands; outside {{ }} and beside all names it offers no commands.", "quantifier": "all syntax trees, texts, server states and cursor positions", "why_tests_cant": "universal over trees and over the position of the cursor relative to all nodes of the tree", "anchors": ["jinja-lsp-queries/src/search/objects.rs:JinjaObjects::in_expr", "jinja-lsp-queries/src/search/objects.rs:JinjaObjects::completion", "jinja-lsp/src/lsp_files.rs:LspFiles::code_action"]}
{"id": "C96", "title": "Work on other documents changes nothing about a document but the names it takes from them", "statement": "Take any two sessions that start in the same state and contain the same messages about a document and about the whole workspace; they may differ arbitrarily in the messages about other documents, in all requests, and in the interleaving. Afterwards the document has the same text, syntax trees, definitions and quick fixes. Document symbols, code actions, completions of filters, tests, snippets and the document's own names, and hover and goto for names the document defines are the same. Opening or saving the document reports the same names at the same places; a report may only change between 'undefined' and 'defined in other file', and only for names the document itself does not define.", "quantifier": "all pairs of message sequences with the same projection to the document, all server states, documents, requests and hash orders", "why_tests_cant": "a relation between two arbitrary executions of unbounded length (non-interference)", "anchors": ["jinja-lsp/src/lsp_files.rs:LspFiles::did_open", "jinja-lsp/src/lsp_files.rs:LspFiles::did_change", "jinja-lsp/src/lsp_files.rs:LspFiles::did_save", "jinja-lsp/src/lsp_files.rs:LspFiles::add_code_actions", "jinja-lsp-queries/src/lsp_helper.rs:search_errors", "jinja-lsp/src/channels/lsp.rs:lsp_task"]}
{"id": "C97", "title": "Diagnostics, goto-definition and hover agree about a name", "statement": "After a template was opened or saved, for every name used as a variable in it and every cursor position on the name, exactly one of three cases holds: (1) nothing is reported about the name, goto-definition leads to a definition before it in the same file, and hover shows the kind of this very definition; (2) the name is reported as defined in another file, goto-definition leads to at least one place in another file, and hover shows 'Backend variable'; (3) the name is reported as undefined, goto-definition leads nowhere and hover shows nothing.", "quantifier": "all templates, server states, uses of names, cursor positions and hash orders", "why_tests_cant": "relates three independent implementations of name lookup over all workspaces, scopes and positions", "anchors": ["jinja-lsp-queries/src/lsp_helper.rs:search_errors", "jinja-lsp/src/lsp_files.rs:LspFiles::goto_definition", "jinja-lsp/src/lsp_files.rs:LspFiles::data_type", "jinja-lsp/src/channels/lsp.rs:lsp_task"]}
{"id": "C98", "title": "Saving again changes nothing", "statement": "After a document was opened or saved, and after any further messages that neither open nor edit it nor rebuild the workspace, saving the document succeeds and changes no text, syntax tree or definition of any document and no setting; what is published for the document are the same reports as the first time except for names that other files began or ceased to define in between, and the same reports outright if the other files still define the same names.", "quantifier": "all documents, server states, intermediate message sequences and hash orders", "why_tests_cant": "quantifies over every sequence of messages between the two analyses and over every document content", "anchors": ["jinja-lsp/src/lsp_files.rs:LspFiles::did_save", "jinja-lsp/src/lsp_files.rs:LspFiles::add_variables", "jinja-lsp/src/lsp_files.rs:LspFiles::delete_variables", "jinja-lsp/src/lsp_files.rs:LspFiles::read_tree"]}
{"id": "C99", "title": "Completion and diagnostics agree about a name", "statement": "After a template was opened or saved, for every variable name used in an expression of it and every cursor position in or behind the name after its first character, completion offers the name among the document's own variables exactly when nothing is reported about it; and whenever completion offers the name as a variable of a backend file instead, the name is reported as defined in another file and not as undefined.", "quantifier": "all templates, server states, uses of names, cursor positions and hash orders", "why_tests_cant": "relates two independent visibility computations (diagnostics and completion) over all workspaces, scopes and positions", "anchors": ["jinja-lsp-queries/src/lsp_helper.rs:search_errors", "jinja-lsp/src/lsp_files.rs:LspFiles::completion", "jinja-lsp/src/lsp_files.rs:LspFiles::read_variables", "jinja-lsp/src/channels/lsp.rs:lsp_task"]}
{"id": "C100", "title": "Settings are read exactly as documented", "statement": "Settings that a client sends with initialize or didChangeConfiguration are accepted exactly when they are a table with a string `templates`, a list of strings `backend`, a string `lang` and, if present, a boolean or null `hide_undefined` (or the list of these four values); then exactly these settings are in force, whatever the order of the members, whatever else the table contains and whatever was in force before, and the workspace is read again when they are sent later. Anything else is ignored as a whole: with initialize the choice is left to the project files, later nothing changes; in particular settings wrapped in a section have no effect. A project file counts exactly when its table jinja-lsp has this form.", "quantifier": "all JSON values, server states, worlds and TOML parsers", "why_tests_cant": "unbounded set of JSON values and orders of members; tests try a few settings", "anchors": ["jinja-lsp/src/config.rs:JinjaConfig", "jinja-lsp/src/config.rs:ExternalConfig", "jinja-lsp/src/config.rs:search_config", "jinja-lsp/src/channels/lsp.rs:lsp_task"]}
{"id": "C101", "title": "A project's configuration file is honoured", "statement": "When the user has not configured the server in the editor, the settings of the first of pyproject.toml, Cargo.toml and jinja-lsp.toml that has a valid section are in force after initialize.", "quantifier": "all projects, user settings and server states", "why_tests_cant": "depends on what the editor plugin sends for every combination of user settings", "anchors": ["jinja-lsp/src/config.rs:search_config", "jinja-lsp/src/channels/lsp.rs:lsp_task", "editors/code/client/src/extension.ts:activate", "editors/code/package.json"]}
{"id": "C102", "title": "Goto-definition in an embedded template leads to the definition", "statement": "In a template embedded in a host file, asking the Node API for the definition of the name under the cursor leads to the place of the definition: to the latest visible definition of the template itself, in the host file and as many lines down as the template is; otherwise to the definitions in the other templates of the file and to the hints told for the name, marked as belonging to the backend. It always answers.", "quantifier": "for every sequence of calls, host file name, embedded template, line of the template in its host file, use of a name in it, position on the name, set of definitions and of hints, hash order", "why_tests_cant": "the answer depends on the name of the host file, on all names recorded for all other documents and on the hints told before; tests use one file name and one template", "anchors": ["jinja-lsp-nodejs/src/lib.rs:470-519 goto_definition", "jinja-lsp-nodejs/src/lib.rs:96-115 save_link_hint", "jinja-lsp/src/lsp_files.rs:376-480 goto_definition", "jinja-lsp/src/lsp_files.rs:435-458"]}
{"id": "C103", "title": "Embedded templates do not disturb one another", "statement": "What the Node API says about an embedded template depends on that template only: getVariables lists exactly the definitions of the last content given for it, in the order of the text, moved down by the line given; and calls about other documents (adding other templates, deleting other files, hints under other names) change neither this list nor what goto-definition, hover and completion answer in it.", "quantifier": "for every sequence of calls before and after the template was given, every template, file name, line offset, use of a name, cursor on it and hash order", "why_tests_cant": "history property over unbounded sequences of calls about arbitrarily many documents; the failing cases need particular file names or names of variables", "anchors": ["jinja-lsp-nodejs/src/lib.rs:133-240 add_one", "jinja-lsp-nodejs/src/lib.rs:243-253 get_variables", "jinja-lsp-nodejs/src/lib.rs:256-336 hover", "jinja-lsp-nodejs/src/lib.rs:470-519 goto_definition", "jinja-lsp/src/lsp_files.rs:898-912 delete_documents_with_id"]}
{"id": "C104", "title": "A syntax tree is only read together with its own text", "statement": "Whenever the server or the Node API evaluates a query, it reads the nodes of a syntax tree from exactly the text that tree was made from. Hence no answer, message, state or end of a task depends on what would happen if nodes were read from another, for instance shorter, text.", "quantifier": "for every history of messages or calls, every state reached, every next message, every interleaving of the tasks and every two libraries that agree wherever a tree is read with its own text", "why_tests_cant": "relational property over unbounded histories and all behaviours of tree-sitter on foreign texts, where slicing may panic; tests see one library and finitely many sessions", "anchors": ["jinja-lsp/src/lsp_files.rs:79-122 add_variables", "jinja-lsp/src/lsp_files.rs:165-205 did_change", "jinja-lsp-queries/src/search/definition.rs:166 utf8_text unwrap", "jinja-lsp-queries/src/search/objects.rs:75 utf8_text"]}
{"id": "C105", "title": "Completion, hover and the outline describe a name alike", "statement": "For every variable used in an expression of a template, with the cursor in or behind the name after its first character, the item that completion offers for the name among the variables of the document is described by exactly the text that hover shows for the name, and carries the icon that the outline gives to the definition; items of other files are marked as backend variables.", "quantifier": "for all templates, recorded definitions, uses of names, cursor positions, typed prefixes, workspaces and hash orders", "why_tests_cant": "relates three features for all sets of definitions of a name; the features choose differently among several definitions, which tests with one definition per name do not see", "anchors": ["jinja-lsp/src/lsp_files.rs:604-698 read_variables", "jinja-lsp/src/lsp_files.rs:841-869 data_type", "jinja-lsp/src/channels/lsp.rs:260-311", "jinja-lsp-queries/src/search/mod.rs:109-155 completion_detail, completion_kind, symbol_kind"]}
{"id": "C106", "title": "Concurrent handlers answer as a sequential server would", "statement": "The handlers of the client's calls run concurrently, but no call is answered twice, a call that is not answered yet still has its handler, a handler that waits for an answer has its message in the queue of a living worker, and every answer of the worker is the one a sequential server gives that processed, in order, the messages of exactly the earlier calls (cancelled ones may be missing) and messages of its own. If the worker is gone, requests are answered with null.", "quantifier": "for all lists of calls, all numbers of handlers running at the same time, all interleavings of handlers, worker, diagnostics task and expiring delays, all cancellations and all panics of the worker", "why_tests_cant": "a property of all interleavings of an unbounded number of concurrent handlers with bounded queues; tests run one schedule, and the harmful ones need a full queue", "anchors": ["jinja-lsp/src/backend.rs:32-154 LanguageServer for Backend", "jinja-lsp/src/channels/lsp.rs:44-366 lsp_task", "jinja-lsp/src/main.rs:11-22 main"]}
{"id": "C107", "title": "Every call gets its answer", "statement": "If the client sends nothing more, then after a bounded number of steps of the server every call it has sent is answered and no handler is left, whatever the schedule, the file system and the iteration orders, and also if a task panics. (False if the client sends enough while the worker is about to begin: the queue is full, the worker waits for room in it, and the next request is never answered; it holds if at most 50 messages are under way or waiting to be sent.)", "quantifier": "for all lists of calls, all numbers of handlers running at the same time, all reachable states of the server with its handlers, all schedules, all file systems, all hash iteration orders and all panics", "why_tests_cant": "termination under every schedule, and a deadlock which needs 50 messages to arrive during a single step of the worker", "anchors": ["jinja-lsp/src/backend.rs:32-154 LanguageServer for Backend", "jinja-lsp/src/backend.rs:157-170 _new", "jinja-lsp/src/channels/lsp.rs:44-366 lsp_task", "jinja-lsp/src/channels/diagnostics.rs:14-59 diagnostics_task"]}
{"id": "C108", "title": "On an attribute, hover and goto-definition are about the variable", "statement": "With the cursor on any attribute of a name used in a template (on `b` or `c` in `a.b.c`), hover answers exactly what it answers with the cursor on the name itself, and goto-definition leads to the binding of the variable that reaches the cursor and starts last. (Goto-definition is false if another attribute, a filter or an operand follows the attribute in the same expression or statement: it answers with an empty list, whatever binds the variable.)", "quantifier": "for all syntax trees, all names with any number of attributes, all attributes, all cursor positions on them, all documents around them, all file systems, all hash iteration orders and all states of the server that hold the tree", "why_tests_cant": "the result depends on everything that follows the attribute in the document, and the search skips the first capture after the cursor", "anchors": ["jinja-lsp-queries/src/search/objects.rs:153-240 JinjaObjects", "jinja-lsp-queries/src/search/objects.rs:241-314 objects_query", "jinja-lsp/src/lsp_files.rs:333-374 hover", "jinja-lsp/src/lsp_files.rs:376-480 goto_definition"]}
{"id": "C109", "title": "A file is one document", "statement": "When the client opens a file that was read from disk, the text of the editor takes the place of that on disk: under every name of the file (the one given when reading the workspace and every URI a client may write for it) the server has the editor's text and its definitions, and opening a file changes no other file's text. (Proved for paths of letters, digits, - . _ ~ and /. False otherwise: files read from disk are filed under file:// and the path as it is, clients escape characters, so the file is two documents; what was read from disk is never updated, and names that were defined there are reported as defined in another file until the workspace is read again.)", "quantifier": "for all paths, all URIs that RFC 3986 allows for them, all file systems, all hash iteration orders, and all sequences of client messages between reading the workspace, opening and analysing", "why_tests_cant": "needs all paths and all ways of escaping them, and a statement about every session afterwards", "anchors": ["jinja-lsp/src/lsp_files.rs:65-78 read_file", "jinja-lsp/src/lsp_files.rs:782-803 did_open", "jinja-lsp/src/config.rs:73-115 walkdir"]}
{"id": "C110", "title": "Templates that completion offers are there", "statement": "The names that completion offers for a template are names of files that exist: accepting one puts it between the quotes, and no later analysis of any template reports that name as missing while the files stay. (Proved when the workspace was read from disk and the client opens only files that are on disk under URIs without escapes. False otherwise: a document that was opened but never saved, or whose URI contains an escape such as %20, is offered under a name that does not exist, and the name is reported as missing as soon as it was accepted.)", "quantifier": "for all workspaces, file systems, texts, positions, templates directories whose name occurs once in the paths, and all sequences of client messages before and after the completion", "why_tests_cant": "relates completion, the file system and the diagnostics of every later state of every session", "anchors": ["jinja-lsp/src/lsp_files.rs:700-750 read_templates", "jinja-lsp/src/config.rs:73-115 walkdir", "jinja-lsp-queries/src/lsp_helper.rs:80-130 search_errors"]}
{"id": "C111", "title": "Completion documents filters and tests as hover does", "statement": "Every item of a completion list that carries documentation carries exactly what hover shows for a filter (or, in a list of tests, for a test) of that name, wherever it is used; no other item carries documentation. At a bar the filters offered are exactly those for which hover shows something, each once; after `is` in a statement the same holds for tests. In embedded templates the filters that complete() offers are exactly those that hover() describes, with the same text. (Proved except that the tests `true` and `false` are offered while hover shows what is tested.)", "quantifier": "for all states, requests, cursor positions, templates, filter and test names", "why_tests_cant": "relates every item of a list to hover in every other state and template", "anchors": ["jinja-lsp/src/channels/lsp.rs:163-257", "jinja-lsp/src/channels/lsp.rs:260-311", "jinja-lsp-nodejs/src/lib.rs:256-467 hover, complete", "jinja-lsp/src/filter/mod.rs", "jinja-lsp/src/template_tests/mod.rs"]}
{"id": "C112", "title": "URIs the server sends name the files they are about", "statement": "A URI in an answer or notification names, for a client that reads it as a file URI, the file it is about: goto-definition on a template name leads to the file that is found under that name, the file that the quick fix offers to create is the missing template (so that once it was created no analysis reports the name any more), and each list of diagnostics published after the workspace was read is for the file it was computed from. (Proved for paths in which nothing would end the path of a URI and nothing looks like an escape, whatever else has to be escaped in them. False for the others: with a question mark or a number sign in the path the URI names the file before it, with a percent sign and two hexadecimal digits it names the decoded path; the quick fix for a?b.html creates the file a.)", "quantifier": "for all documents, positions, file systems, template names, paths, workspaces and analysis results, and all later analyses of any template", "why_tests_cant": "ranges over all paths and names and relates the URIs sent to a client's reading of them, to the file system and to every later analysis", "anchors": ["jinja-lsp/src/lsp_files.rs:423-430,470-477 goto_definition of a template name", "jinja-lsp/src/lsp_files.rs:521-583 process_code_actions", "jinja-lsp/src/channels/diagnostics.rs:25-45", "jinja-lsp/src/lsp_files.rs:65-77 read_file"]}
{"id": "C113", "title": "What completion offers is asked for while typing", "statement": "An editor that asks for completion by itself, after characters of words and after the characters that the server announced as triggers, gets the same answer as a user who asks, and it asks wherever something is offered. (Proved: after which characters it asks, that the answers are the same, and that snippets are shown while a tag is being typed in broken text. False otherwise: directly after a pipe all filters are offered on request, and after a slash or a dot in the name of a template the templates that match, but the editor is not told to ask there.)", "quantifier": "for all editors' notions of a word, all client settings, documents, trees, positions and characters typed", "why_tests_cant": "compares what the server announced once with its answers in every state, at every position, for every character", "anchors": ["jinja-lsp/src/channels/lsp.rs:63-109 capabilities", "jinja-lsp/src/lsp_files.rs:248-325 completion"]}
{"id": "C114", "title": "A larger workspace never means more errors", "statement": "When documents that the server knew nothing about are opened, or files are added to the disk, the errors of a template do not increase: analysed again, each use of a name is reported at the same place with the same kind, or as defined somewhere instead of undefined; and the templates reported missing are some of those reported before. No report about another place or another name appears.", "quantifier": "for all servers, templates, texts, trees, sequences of newly opened documents, file systems before and after, and iteration orders of hash maps", "why_tests_cant": "compares two analyses in two arbitrary workspaces and file systems, one contained in the other", "anchors": ["jinja-lsp-queries/src/lsp_helper.rs:14-130 search_errors", "jinja-lsp/src/lsp_files.rs:207-225 read_tree", "jinja-lsp/src/lsp_files.rs:227-246 did_save", "jinja-lsp/src/lsp_files.rs:782-803 did_open"]}
{"id": "C115", "title": "Questions about a rewritten template get the rewritten answers", "statement": "When the names of a template are consistently replaced, its text is moved (for example lines inserted above) or its nodes get other ids, goto-definition and hover at the corresponding position give the corresponding answer. A definition in the template is found at the place it has been moved to; a template name leads to the same file; a name that is defined in other files leads to the same places; hover shows the same text. If one of the two requests panics, so does the other, in the same way.", "quantifier": "for all syntax trees without errors, rewritings that keep different names different and the order of places, servers that agree about all other files, positions, file systems that agree, and iteration orders of hash maps", "why_tests_cant": "relates the answers for infinitely many pairs of templates and positions; a test compares one pair", "anchors": ["jinja-lsp-queries/src/search/objects.rs:241-314 objects_query", "jinja-lsp-queries/src/search/templates.rs:226-251 templates_query", "jinja-lsp/src/lsp_files.rs:333-374 hover", "jinja-lsp/src/lsp_files.rs:376-480 goto_definition", "jinja-lsp/src/lsp_files.rs:841-869 data_type", "jinja-lsp/src/channels/lsp.rs:266-309 hover text"]}
{"id": "C116", "title": "Completion moves with the lines", "statement": "When lines are inserted anywhere in an error-free template (names and columns stay, row r becomes row g r), a completion request at the moved position is answered with the same items as before, in some order, and the edits of the items are made in the moved lines.", "quantifier": "every syntax tree, every strictly increasing g, every position and trigger, every workspace, both editors", "why_tests_cant": "universally quantified over templates, ways to insert lines and positions", "anchors": ["jinja-lsp/src/lsp_files.rs:248-325", "jinja-lsp/src/lsp_files.rs:604-761", "jinja-lsp-queries/src/search/objects.rs:153-238", "jinja-lsp-queries/src/search/mod.rs:56-75", "jinja-lsp/src/channels/lsp.rs:157-259"]}
{"id": "C117", "title": "Ranges shown in the editor cover the name they are about", "statement": "In an editor that shows the text of a template, the range of every symbol of the outline and of every diagnostic covers exactly the characters of the name (or of the string that names a missing template) it is about; and goto-definition with the cursor in a name answers with a range that covers an occurrence of this very name.", "quantifier": "every text without lone CR below 4 GiB, every syntax tree whose names stand in the text where their nodes say, every cursor, every workspace", "why_tests_cant": "universally quantified over texts with arbitrary Unicode characters before the names; the two units of columns agree on every ASCII test file", "anchors": ["jinja-lsp-queries/src/search/mod.rs:76-92", "jinja-lsp-queries/src/to_input_edit.rs:72-74", "jinja-lsp/src/lsp_files.rs:871-892", "jinja-lsp-queries/src/lsp_helper.rs:132-147"]}
{"id": "C118", "title": "Places of embedded templates are places in the host document", "statement": "A template embedded in a host document (a string in a Python file, say) begins at line `line`, UTF-16 column `col`, and is given to the Node API with these numbers. Then the range of every variable the API lists, every link it makes, and every range that hover and goto-definition answer covers, in the host document, the occurrence of the name it is about; the cursor position of the host document is understood as the place in the template where the cursor stands.", "quantifier": "every host document without lone CR below 4 GiB, every place of the template in it, every content and syntax tree whose names stand in the text where their nodes say, every sequence of API calls, every cursor in a name", "why_tests_cant": "universally quantified over host documents, offsets and texts; the project's Node tests use one document with ASCII text", "anchors": ["jinja-lsp-nodejs/src/lib.rs:133-240", "jinja-lsp-nodejs/src/lib.rs:243-253", "jinja-lsp-nodejs/src/lib.rs:256-336", "jinja-lsp-nodejs/src/lib.rs:470-519"]}
{"id": "C119", "title": "Opening an unchanged document changes nothing", "statement": "After a successful (re)initialisation, or after a document was opened or saved, and after any further messages that neither open nor edit the document nor rebuild the workspace, opening the document with the text the server holds succeeds and changes nothing: all texts, names and settings stay the same, every later completion, hover, goto-definition and symbol request is answered alike, and the reports published for the document are those of the initialisation (or of the earlier opening or save), except for names that other files began or ceased to define in between; if other files still define the same names, they are the same reports outright.", "quantifier": "every workspace on disk, every configuration, every history before, every sequence of messages in between, every document", "why_tests_cant": "compares two analyses separated by arbitrary messages, in arbitrary workspaces; the project has no test of initialisation followed by opening", "anchors": ["jinja-lsp/src/lsp_files.rs:65-77", "jinja-lsp/src/lsp_files.rs:124-146", "jinja-lsp/src/lsp_files.rs:782-803", "jinja-lsp/src/lsp_files.rs:595-602", "jinja-lsp/src/config.rs:73-102"]}
{"id": "C120", "title": "A variable is reported exactly if Jinja does not find it bound", "statement": "When a template without syntax errors has been opened or saved, a variable in it is reported (as undefined or as defined elsewhere) exactly if, by Jinja's scoping rules, no binding of the template is visible where the variable is evaluated: `set`, macros and imports bind from there on up to the end of the enclosing scope, loops, `with` and macros open scopes for their targets and parameters, `if` opens none, and headers are evaluated before their targets are bound.", "quantifier": "every template (as a syntax tree over an abstract syntax of templates of any nesting depth), every variable evaluated in it, every server state, every file system", "why_tests_cant": "an equivalence between two recursive definitions over all nested templates; the tests fix six templates", "anchors": ["jinja-lsp-queries/src/search/definition.rs:159-288", "jinja-lsp-queries/src/search/definition.rs:290-352", "jinja-lsp-queries/src/search/queries.rs:197-233", "jinja-lsp/src/lsp_files.rs:604-698"]}
{"id": "C121", "title": "Goto-definition and hover follow the binding Jinja resolves a variable to", "statement": "When a template without syntax errors has been opened or saved, goto-definition on a variable leads to the very binding that Jinja resolves the variable to at this place (the innermost, latest one), and hover names the kind of that binding; for a variable that Jinja finds unbound, goto-definition leads only to definitions in other files.", "quantifier": "every template (as a syntax tree over an abstract syntax of templates of any nesting depth), every variable evaluated in it, every cursor position on it, every server state", "why_tests_cant": "shadowing at any depth, in all nested templates; the tests have two goto requests in fixed templates", "anchors": ["jinja-lsp/src/lsp_files.rs:333-374", "jinja-lsp/src/lsp_files.rs:376-480", "jinja-lsp-queries/src/search/definition.rs:159-288"]}
{"id": "C122", "title": "Completion offers exactly the names that Jinja can see", "statement": "When a template without syntax errors has been opened or saved and the cursor is in an expression `{{ … }}`, after the first characters of a name or behind a name, completion offers, besides the variables of backend files, exactly the names of the bindings that are visible there by Jinja's scoping rules and begin with the typed characters, each once.", "quantifier": "every template (as a syntax tree over an abstract syntax of templates of any nesting depth), every name evaluated in an expression of it, every split of that name into typed and untyped characters, every cursor position between names, every server state", "why_tests_cant": "an equality of two sets defined by recursion over all nested templates; the tests compare the first label or the number of items in fixed templates", "anchors": ["jinja-lsp/src/lsp_files.rs:262-331", "jinja-lsp/src/lsp_files.rs:604-698", "jinja-lsp/src/channels/lsp.rs:188-330", "jinja-lsp-queries/src/search/definition.rs:159-359"]}
{"id": "C123", "title": "What the editor shows when typing stops follows Jinja's scoping rules", "statement": "When the user has stopped typing in a template without syntax errors and the server has come to rest, the diagnostics last displayed for it underline exactly the variables that Jinja does not find bound in the text in the editor, and goto-definition, hover and completion at a variable answer with the bindings Jinja sees there.", "quantifier": "every execution of the server's tasks (any interleaving, any clients' messages, any file system), every template (as a syntax tree over an abstract syntax of any nesting depth), every variable in an expression", "why_tests_cant": "ranges over all interleavings of the worker, diagnostics and timer tasks and all nested templates; the tests call the analysis directly on fixed templates", "anchors": ["jinja-lsp/src/channels/lsp.rs:60-330", "jinja-lsp/src/channels/diagnostics.rs:14-59", "jinja-lsp/src/lsp_files.rs:248-480", "jinja-lsp-queries/src/search/definition.rs:159-359"]}
{"id": "C124", "title": "What the backend passes is known in the templates", "statement": "At every point of every session, a variable that the present text of a backend file passes to templates (in a macro such as context!, by jinja.add_global and the like, as keyword of render, as key of jinja_env.globals) and that a template uses without binding it is reported as defined in another file and never as undefined; goto-definition on it leads to the place where it is passed; hover says that it is a backend variable; completion offers it; and besides the variables of the template, completion offers nothing else.", "quantifier": "all sessions (startup, openings, changes, saves, in any order) in which changes of the file were saved, all syntax trees of backend files without errors, all templates and positions", "why_tests_cant": "relates two files of different languages over all histories and all syntax trees; the tests fix one text each", "anchors": ["jinja-lsp/src/lsp_files.rs:79-122", "jinja-lsp/src/lsp_files.rs:248-480", "jinja-lsp-queries/src/search/queries.rs:RUST_DEFINITIONS", "jinja-lsp-queries/src/search/queries.rs:PYTHON_DEFINITIONS", "jinja-lsp-queries/src/search/rust_identifiers.rs:backend_definition_query"]}
{"id": "C125", "title": "When typing in a backend file stops, everything follows its text", "statement": "In every interleaving, when typing in a Rust or Python file has stopped and nothing is left to do: the names recorded for it are exactly those the text in the editor passes to templates, and the templates exactly those it loads; what is underlined in the file are exactly the names of loaded templates that do not exist; in every analysed template, hover, goto-definition and completion know the names passed; and no open template shows such a name as undefined.", "quantifier": "every execution of the two tasks, every interleaving of typing, delays, saves and requests, every text of the file and every syntax tree of it", "why_tests_cant": "ranges over all interleavings, all histories of edits and all syntax trees of backend files and templates", "anchors": ["jinja-lsp/src/lsp_files.rs:LspFiles::did_change", "jinja-lsp/src/lsp_files.rs:LspFiles::did_save", "jinja-lsp/src/lsp_files.rs:LspFiles::add_variables", "jinja-lsp/src/channels/lsp.rs", "jinja-lsp/src/channels/diagnostics.rs"]}
{"id": "C126", "title": "Embedded templates are answered by Jinja's scoping rules", "statement": "In a template embedded in a host document and added to the Node API, goto-definition on a variable leads to the very binding that Jinja resolves the variable to at this place, at its place in the host document; hover names the kind of that binding, for the range of the variable in the host document; a variable that Jinja does not find bound and that no other file has an entry for is unknown to both; and completion offers exactly the names that Jinja can see, besides hints and the variables of backend files.", "quantifier": "every sequence of calls, every host document and embedded template (as a syntax tree over an abstract syntax of templates of any nesting depth), every variable evaluated in it, every cursor position on it", "why_tests_cant": "shadowing at any depth, any text before and around the template and any earlier calls; the tests of the Node API do not ask about nested templates", "anchors": ["jinja-lsp-nodejs/src/lib.rs:256-336 hover", "jinja-lsp-nodejs/src/lib.rs:339-467 complete", "jinja-lsp-nodejs/src/lib.rs:470-519 goto_definition", "jinja-lsp/src/lsp_files.rs:376-480 goto_definition", "jinja-lsp-queries/src/search/definition.rs:159-288"]}
{"id": "C127", "title": "Text and comments between the tags do not matter", "statement": "What is written between the tags of a template (text, markup, comments) has no influence on the server. If two parsers differ only in what they make of it, every session goes the same way. If the tags of two templates correspond - renamed consistently and moved in a way that keeps the order of places, with any text and any comments between them - then opening or saving them reports the same names and the same missing templates at corresponding places, the outlines correspond, and goto-definition, hover and completion answer alike at corresponding positions.", "quantifier": "every execution and every pair of parsers with the same tags; every pair of error-free syntax trees whose tags correspond, with any number of any nodes without meaning between the tags, every server state and position", "why_tests_cant": "The text between tags is arbitrary; a test has one text. That no query looks past the tags, at siblings or at the children of the root that are not tags, is a statement about all trees.", "anchors": ["jinja-lsp-queries/src/search/queries.rs:1-229", "jinja-lsp-queries/src/search/definition.rs:159-389", "jinja-lsp-queries/src/search/objects.rs:55-238", "jinja-lsp-queries/src/search/templates.rs:92-251", "jinja-lsp-queries/src/lsp_helper.rs:14-130", "jinja-lsp/src/lsp_files.rs:248-480"]}
{"id": "C128", "title": "Tags that bind nothing have no influence on other tags", "statement": "Expressions, and statements that neither bind a name nor open or close a block (include, import, extends), can be added to a template, removed from it or changed without effect on what the server says about the other tags: the outline stays the same, and a use of a name elsewhere in the template is reported exactly if it was before, in the same way. The other tags may at the same time be moved (keeping their order) and renamed consistently.", "quantifier": "every pair of templates that differ by any number of such tags (and texts, comments) anywhere, every consistent renaming and every order-preserving move of the rest, every server state", "why_tests_cant": "The scope of every binding is computed by a walk over all tags of the file; that a tag of one kind has no effect on it, wherever it stands and however many there are, is a statement about all pairs of templates. The refuted case (an expression with an inline `if`) was not found by the tests of the project.", "anchors": ["jinja-lsp-queries/src/search/definition.rs:159-389", "jinja-lsp-queries/src/search/objects.rs:55-238", "jinja-lsp-queries/src/search/queries.rs:1-229", "jinja-lsp-queries/src/lsp_helper.rs:14-130", "jinja-lsp/src/lsp_files.rs:248-480"]}
{"id": "C129", "title": "Writing on at the end of a template changes nothing that is said about the part before", "statement": "When tags are added at the end of a template - complete blocks, open blocks, or end tags that close blocks of the part before - then for every name used in the part before: it is reported exactly if it was reported, goto-definition leads to the same place, hover shows the same kind of variable, and completion there offers the same names of the file. The outline is what it was, followed by entries for the new tags.", "quantifier": "every template whose tags can be read, every sequence of further tags (well nested or not), every use, position and server state", "why_tests_cant": "Scopes are closed by a walk over the whole file, and the scope of an unclosed block ends with the file, so every scope is recomputed when text is appended; that no verdict about the part before depends on it is a statement about all pairs of a template and a continuation.", "anchors": ["jinja-lsp-queries/src/search/definition.rs:159-389", "jinja-lsp-queries/src/search/mod.rs:1-122", "jinja-lsp-queries/src/lsp_helper.rs:14-130", "jinja-lsp/src/lsp_files.rs:248-480", "jinja-lsp/src/lsp_files.rs:871-892"]}
{"id": "C130", "title": "A complete piece of a template has no influence on the tags around it, but for the names it leaves behind", "statement": "If in a piece of a template every block that is opened is closed, and no other, then with or without the piece: a name used before or after it is reported alike, goto-definition and hover answer alike and completion offers the same names, except for names that the piece sets (or macros it defines) outside of its own blocks, which matter after it. The outline has the entries of the piece in addition.", "quantifier": "every template, every complete piece at any place in it (at any depth), every use and position outside, every server state", "why_tests_cant": "Blocks can be nested and combined without limit, and a piece can stand inside any number of open blocks; a test shows one piece in one place. The refuted case (a condition with `else` inside a loop) shows that the tests of the project do not establish it.", "anchors": ["jinja-lsp-queries/src/search/definition.rs:159-389", "jinja-lsp-queries/src/search/mod.rs:1-122", "jinja-lsp-queries/src/lsp_helper.rs:14-130", "jinja-lsp/src/lsp_files.rs:248-480", "jinja-lsp/src/lsp_files.rs:871-892"]}
{"id": "C131", "title": "Tags that end no block of their surroundings take nothing away from the tags around them", "statement": "When tags are added anywhere in a template that end no block opened outside of them - blocks complete or not, with or without `else`, whatever they bind - then no name used elsewhere in the file is reported that was not reported before; where goto-definition led to a definition in the file it leads to the same or a later one; and every name of the file offered at a place elsewhere is still offered there. (Read backwards: removing such tags never silences a report.)", "quantifier": "every template without stray end tags, every sequence of added tags without stray end tags at any place and depth, every use and position outside, every server state", "why_tests_cant": "Adding a tag moves the ends of an unbounded number of scopes (in this code `else` shifts the end of every enclosing block), and each has to move outwards; a test shows a few templates.", "anchors": ["jinja-lsp-queries/src/search/definition.rs:159-389", "jinja-lsp-queries/src/search/mod.rs:1-122", "jinja-lsp-queries/src/lsp_helper.rs:14-130", "jinja-lsp/src/lsp_files.rs:248-480", "jinja-lsp/src/lsp_files.rs:871-892"]}
{"id": "C132", "title": "Writing in one part of a template leaves the squiggles in other parts as they are", "statement": "Take two moments at which typing in a template has stopped and the server has come to rest. If the text in the editor at the second moment is the text at the first with further tags at the end (complete or not), the names underlined in the part before are exactly those underlined at the first moment. If it has tags anywhere in addition that end no block of their surroundings, no name elsewhere is underlined that was not underlined before.", "quantifier": "every two executions (all interleavings of server, timers and publishing, all client messages), every template, every added tags, every use outside", "why_tests_cant": "What is on the screen is decided by the last analysis among many that are delayed, overtaken or dropped; the statement compares two such outcomes for all texts and all interleavings.", "anchors": ["jinja-lsp/src/channels/lsp.rs:33-218", "jinja-lsp/src/channels/diagnostics.rs:1-59", "jinja-lsp/src/lsp_files.rs:248-480", "jinja-lsp-queries/src/search/definition.rs:159-389", "jinja-lsp-queries/src/lsp_helper.rs:14-130"]}
{"id": "C133", "title": "Writing in one part of an embedded template leaves the answers in other parts as they are", "statement": "Take an embedded template (Node API) and the same template with further tags at its end (complete or not), or with a complete piece put in somewhere, such as a loop with its end tag; the host document around it may change as well. With the cursor of the host document in a variable outside of the new tags that is bound there, goto-definition leads to the same binding, at its place in the host document, and hovering shows the same kind of variable. Beside names, completion offers the same names. The exception are names that a complete piece in front sets, or macros it defines, outside of its blocks.", "quantifier": "every two sequences of API calls, host documents, templates, added tags, uses outside of them, and cursor positions", "why_tests_cant": "The claim compares two analyses for every pair of templates; scopes are found by counting brackets over the whole list of matches, so every additional tag can affect any other.", "anchors": ["jinja-lsp-nodejs/src/lib.rs:133-240 add_one", "jinja-lsp-nodejs/src/lib.rs:256-336 hover", "jinja-lsp-nodejs/src/lib.rs:339-467 complete", "jinja-lsp-nodejs/src/lib.rs:470-519 goto_definition", "jinja-lsp-queries/src/search/definition.rs:159-389"]}
{"id": "C134", "title": "No call of the Node API panics", "statement": "If parsing never fails, tree nodes lie inside the text they were made from and absolute file URIs are valid URLs, then in the release build (the one that is published) every call of the Node API returns, in every state and for every argument, positions above the template or far beyond its end and any line number included: adding and deleting templates and hints, the list of variables, hover, completion and goto-definition.", "quantifier": "every sequence of calls, states of the object, arguments, texts, trees and hash orders", "why_tests_cant": "A panic is the absence of a result for some argument; the arithmetic on lines wraps around, URLs are made from file names and hint names and unwrapped, and which entries are visited depends on everything added before.", "anchors": ["jinja-lsp-nodejs/src/lib.rs:78-240", "jinja-lsp-nodejs/src/lib.rs:243-253 get_variables", "jinja-lsp-nodejs/src/lib.rs:256-336 hover", "jinja-lsp-nodejs/src/lib.rs:339-467 complete", "jinja-lsp-nodejs/src/lib.rs:470-519 goto_definition", "jinja-lsp/src/lsp_files.rs:376-480 goto_definition"]}
{"id": "C135", "title": "Putting a block around a part of a template changes only what the block is about", "statement": "Put a block (`{% for %}`, `{% if %}`, `{% with %}`, `{% macro %}`, `{% block %}`, … with its end tag) around a part of a template that is complete in itself, or take it away again, everything else staying in place. Then in front of the end tag of the block and inside of it nothing changes for the names the block does not bind: the same uses are reported, goto-definition leads to the same place, hovering shows the same kind, the same names are offered. Behind the block this holds for all names that the part does not set (or define as a macro) outside of its own blocks. The outline gets entries for what the block binds, the others stay.", "quantifier": "every two templates that differ by a block around a part, uses, cursor positions, workspaces and hash orders", "why_tests_cant": "The claim compares two analyses for every pair of templates; scopes are found by counting brackets over the whole list of matches, so every additional bracket can affect any other.", "anchors": ["jinja-lsp-queries/src/search/definition.rs:159-389", "jinja-lsp-queries/src/search/mod.rs:1-122", "jinja-lsp-queries/src/lsp_helper.rs:14-130", "jinja-lsp/src/lsp_files.rs:248-480", "jinja-lsp/src/lsp_files.rs:871-892"]}
{"id": "C136", "title": "However a template is rewritten in other parts, the same is said about a name", "statement": "Rewrite a template in any number of steps. Each step adds tags at the end, puts in a complete piece, puts a block around a complete piece, or replaces the opening tag of a block by another, or takes back such a change; the other tags stay in place. No step binds, or bound, a certain name in front of a use of it (with a scope that reaches it), nor leaves that name behind for it. Then everything said about the use is the same before and after: whether it is reported, where goto-definition leads, which kind hovering shows, and whether the name is offered there. When typing has stopped and the server has come to rest, the use is underlined in both or in none.", "quantifier": "every two templates connected by such steps, of any number, uses, cursor positions, executions, workspaces and hash orders", "why_tests_cant": "The steps can be combined without limit, and scopes are found by counting brackets over the whole list of matches, so every changed bracket can affect any other.", "anchors": ["jinja-lsp-queries/src/search/definition.rs:159-389", "jinja-lsp-queries/src/search/mod.rs:1-122", "jinja-lsp-queries/src/lsp_helper.rs:14-130", "jinja-lsp/src/lsp_files.rs:248-480", "jinja-lsp/src/channels/lsp.rs:157-330"]}
{"id": "C137", "title": "However an embedded template is rewritten in other parts, the answers about a name stay the same", "statement": "Rewrite an embedded template (Node API) in any number of the steps of C136, none of which concerns the name of a use; the host document around it may change as well. With the cursor of the host document in the use, goto-definition leads to the same binding, at its place in the host document, and hovering shows the same kind of variable. Beside names, completion offers the name exactly if it did.", "quantifier": "every two sequences of API calls, host documents, templates connected by such steps, uses, and cursor positions", "why_tests_cant": "The steps can be combined without limit, and scopes are found by counting brackets over the whole list of matches, so every changed bracket can affect any other.", "anchors": ["jinja-lsp-nodejs/src/lib.rs:133-240 add_one", "jinja-lsp-nodejs/src/lib.rs:256-336 hover", "jinja-lsp-nodejs/src/lib.rs:339-467 complete", "jinja-lsp-nodejs/src/lib.rs:470-519 goto_definition", "jinja-lsp-queries/src/search/definition.rs:159-389"]}
{"id": "C138", "title": "A definition leads to itself and is described as what it is", "statement": "With the cursor on a name where the template binds it (as target of a set, a loop or a with, as macro or parameter), goto-definition leads to that very place, and hovering shows the kind of variable that is bound there. Following goto-definition from a variable of the template leads to a place from where it leads to that place again: following it twice is following it once. When typing has stopped and the server has come to rest, this holds for the text in the editor.", "quantifier": "every template, binding, use, cursor position, workspace, execution and hash order", "why_tests_cant": "Which binding is found depends on all bindings of that name, their places and scopes; tests can only try some arrangements.", "anchors": ["jinja-lsp/src/lsp_files.rs:376-418 goto_definition", "jinja-lsp/src/lsp_files.rs:333-374 hover", "jinja-lsp/src/channels/lsp.rs: Hover", "jinja-lsp-queries/src/search/definition.rs:159-389"]}
{"id": "C139", "title": "In embedded templates too, a definition leads to itself and is described as what it is", "statement": "Through the Node API, with the cursor of the host document on a name where an embedded template binds it, goto_definition leads to that very place of the host document, and hovering shows the kind of variable that is bound there. Following goto_definition from a variable of the template leads to a place of the host document from where it leads to that place again.", "quantifier": "every sequence of calls, host document, embedded template, binding, use, cursor position and hash order", "why_tests_cant": "The places of answers depend on the line and column where the template starts, on the text before it and on all bindings of the name; tests can only try some arrangements.", "anchors": ["jinja-lsp-nodejs/src/lib.rs: goto_definition, hover, complete", "jinja-lsp/src/lsp_files.rs:376-418 goto_definition", "jinja-lsp-queries/src/search/definition.rs:159-389"]}
{"id": "C140", "title": "A name is not reported as undefined where the template binds it", "statement": "A name that a tag of a template binds is in scope at the place where it is bound: the scope of a binding never ends in front of its name. So the diagnostics never report a name at the place of its own definition, be it the target of a set, a loop, a with, a macro, a parameter of one or a block; and when the server is at rest, no such name is underlined in the editor.", "quantifier": "every template, nesting of tags (closed or not), binding, server state, execution and hash order", "why_tests_cant": "Where scopes end depends on how all end tags behind a tag match; tests can try some nestings of tags only.", "anchors": ["jinja-lsp-queries/src/lsp_helper.rs:32-85 search_errors", "jinja-lsp-queries/src/search/definition.rs:159-389", "jinja-lsp-queries/src/search/objects.rs"]}
{"id": "C141", "title": "Goto-definition leads to entries of the outline", "statement": "From whatever position goto-definition is asked, each place it answers with is the beginning of a file or the exact range of an entry of the outline (documentSymbol) of the file it leads to; with the cursor on a name of a template, that entry has this name, possibly followed by attributes.", "quantifier": "every server state, document, cursor position, workspace and hash order", "why_tests_cant": "universal over states; the two features are tested apart, and files whose URI is written differently by the URL parser do not occur in tests", "anchors": ["jinja-lsp/src/lsp_files.rs:376-480 goto_definition", "jinja-lsp/src/lsp_files.rs:871-892 document_symbols"]}
{"id": "C142", "title": "In embedded templates, goto_definition leads to variables that get_variables lists", "statement": "Through the Node API, from whatever position it is asked: each place in the host document that goto_definition answers with is the exact range of a variable that get_variables lists for the embedded template (called with the same line), or the beginning of the line where the template starts, for the name of a template. With the cursor on a name of the template, the listed variable has that name.", "quantifier": "every state of the API (any sequence of calls), embedded template, line, cursor position, workspace and hash order; debug and release builds", "why_tests_cant": "both answers are moved by the line of the template with arithmetic that can overflow; tests compare each with fixed numbers for a few templates", "anchors": ["jinja-lsp-nodejs/src/lib.rs:243-253 get_variables", "jinja-lsp-nodejs/src/lib.rs:470-519 goto_definition"]}
{"id": "C143", "title": "Definitions are listed in the order of the text, without overlaps", "statement": "The outline of a template has one entry for each definition of the template, with its name and range, in the order in which they are written. Each range has an extent, and ends no later than any following one begins. When typing has stopped, this holds for the text in the editor. In embedded templates, get_variables does the same at the places of the host document. Therefore goto-definition from any definition leads to that definition itself.", "quantifier": "every template of the tag grammar with positions below 2^32, every state in which it was analysed, every execution that has come to rest, every embedded template", "why_tests_cant": "needs every arrangement of tags, nesting and numbers of targets; tests look at the outline of two or three templates", "anchors": ["jinja-lsp-queries/src/search/definition.rs:362-391 definition_query", "jinja-lsp/src/lsp_files.rs:871-893 document_symbols", "jinja-lsp-nodejs/src/lib.rs:243-253 get_variables"]}
{"id": "C144", "title": "Squiggles in a template do not overlap", "statement": "All places reported for a template (undefined names, names defined elsewhere, missing templates) have an extent, and of any two one ends before the other begins. So no name and no template reference is ever reported twice. When typing has stopped and the server has come to rest, this holds for the list the editor displays.", "quantifier": "every template of the tag grammar, every set of files in the workspace and on disk, every opening and saving, every execution that has come to rest; hide_undefined is off", "why_tests_cant": "three lists are gathered by separate queries, of which one runs over a hash map; tests count the diagnostics of a few templates", "anchors": ["jinja-lsp-queries/src/lsp_helper.rs: search_errors", "jinja-lsp-queries/src/search/queries.rs:OBJECTS", "jinja-lsp-queries/src/search/queries.rs:JINJA_IMPORTS", "jinja-lsp/src/channels/diagnostics.rs: diagnostics_task"]}
{"id": "C145", "title": "With hide_undefined, exactly the missing templates are underlined", "statement": "When the workspace hides undefined names, opening or saving a template publishes one diagnostic for each template reference that is not found, at the place of its string, and nothing else: no name is reported, no reference is lost and none is reported twice. The places have an extent and do not overlap. When typing has stopped and the server has come to rest, the editor displays exactly these for its present text.", "quantifier": "every template of the tag grammar, every set of files in the workspace and on disk, every opening and saving, every execution that has come to rest with hide_undefined on", "why_tests_cant": "the setting is read inside a loop over the uses while references are gathered by another query over a hash map; the tests of the project never turn the setting on", "anchors": ["jinja-lsp-queries/src/lsp_helper.rs: search_errors", "jinja-lsp-queries/src/search/queries.rs:JINJA_IMPORTS", "jinja-lsp/src/lsp_files.rs: read_tree", "jinja-lsp/src/channels/diagnostics.rs: diagnostics_task"]}
{"id": "C146", "title": "Where a template binds a name, the server takes it for that name", "statement": "For every definition the server records for a template: with the cursor anywhere on it, goto-definition leads to it itself; no undefined-variable diagnostic is at its place; and goto-definition from any use of a variable of the template leads to a place from where it leads to that same place again. When typing has stopped and the server has come to rest, this holds for the text in the editor and the diagnostics displayed.", "quantifier": "every template of the tag grammar, every recorded definition, every cursor position on it, every opening and saving, every execution that has come to rest", "why_tests_cant": "definitions and uses are found by two independent queries over the tree; that every definition is also found as a use needs an argument about both for every tree", "anchors": ["jinja-lsp-queries/src/search/queries.rs:OBJECTS", "jinja-lsp-queries/src/search/queries.rs:DEFINITIONS", "jinja-lsp/src/lsp_files.rs: goto_definition", "jinja-lsp-queries/src/lsp_helper.rs: search_errors"]}
{"id": "C147", "title": "A reserved word is never taken for a variable", "statement": "In whatever state the server is and whatever message it processes: no diagnostic reports one of the words loop, true, false, not, as, module, super, url_for as an undefined variable or as defined in another file; goto-definition never leads to a definition of such a word in the same document; what hover says is the documentation of a filter or test or about a definition of another name. goto_definition of the Node API never leads to such a definition in the embedded template either.", "quantifier": "every state, world and message of the server; every syntax tree (also erroneous ones) and every cursor position; every call of the Node API", "why_tests_cant": "the words are filtered in one of two branches of the reading of names, and the reading goes on behind the cursor; that no path takes one for a variable has to hold for every sequence of tokens and every workspace", "anchors": ["jinja-lsp-queries/src/search/objects.rs: VALID_IDENTIFIERS", "jinja-lsp-queries/src/search/objects.rs: build_object", "jinja-lsp-queries/src/lsp_helper.rs: search_errors", "jinja-lsp/src/lsp_files.rs: goto_definition", "jinja-lsp/src/lsp_files.rs: data_type"]}
{"id": "C148", "title": "In embedded templates, every listed variable leads to itself", "statement": "Whatever the calls made before: with the cursor in the host document anywhere on a variable that get_variables lists for an embedded template, goto_definition returns exactly the place get_variables lists it with; and goto_definition from a use of a variable of the template returns the place of a listed variable of that name, from where it returns the same place again.", "quantifier": "every sequence of calls, every embedded template of the tag grammar wherever it begins in its host document, every listed variable and every cursor position on it", "why_tests_cant": "two functions of the API have to agree on every template at every offset, though variables and uses are found by different queries and moved by separate code", "anchors": ["jinja-lsp-nodejs/src/lib.rs: get_variables", "jinja-lsp-nodejs/src/lib.rs: goto_definition", "jinja-lsp-queries/src/search/objects.rs: VALID_IDENTIFIERS"]}
{"id": "C149", "title": "What is said about a name depends on the definitions of that name only", "statement": "With the cursor on a name used in a template, hover and goto-definition answer alike (the same text, the same location, or the same locations in some order) in any two states of the server that agree on the template, the directory of templates, the definitions of that name in the template, and the definitions of that name or of attributes of it in each other file; and an analysis of the template reports the same about the uses of the name. In particular, opening, changing or saving another document changes none of these answers unless it changes that document's definitions concerning the name.", "quantifier": "every pair of states, every name, every template of the expression grammar, every cursor position on the name, every edit of another document and every iteration order", "why_tests_cant": "two arbitrary states with arbitrarily many files and definitions are compared, and the absence of influence of everything else is claimed", "anchors": ["jinja-lsp/src/lsp_files.rs: goto_definition", "jinja-lsp/src/lsp_files.rs: data_type", "jinja-lsp-queries/src/lsp_helper.rs: search_errors"]}
{"id": "C150", "title": "In embedded templates, what is said about a name depends on its own definitions and hints", "statement": "With the cursor on a name used in an embedded template, goto_definition and hover of the Node API answer alike in any two states that agree on the template, on the definitions concerning that name, and on the hints told for that name. In particular, telling hints for other names does not change where goto_definition leads.", "quantifier": "every pair of states of the Node API, every name, every embedded template of the expression grammar, every cursor position on the name, every list of hints", "why_tests_cant": "two arbitrary states with arbitrarily many templates, definitions and hints are compared, and the absence of influence of everything else is claimed", "anchors": ["jinja-lsp-nodejs/src/lib.rs: goto_definition", "jinja-lsp-nodejs/src/lib.rs: hover", "jinja-lsp-nodejs/src/lib.rs: save_link_hint"]}
{"id": "C151", "title": "Whether and how a name is offered depends on the definitions of that name only", "statement": "At a position of a document that is not in the name of a template, completion offers a name alike (as often, with the same detail, kind and edits) in any two states of the server that agree on the document, the kind of client, the backend language and the definitions of exactly that name in each file. In particular, opening, changing or saving another document does not change how the name is offered unless it changes that document's definitions of the name, and neither does any sequence of messages about other documents that leaves those definitions the same in the end.", "quantifier": "every pair of states, every name, every document and position, every edit of another document, every pair of sessions and every iteration order", "why_tests_cant": "two arbitrary states with arbitrarily many files and definitions are compared, and the absence of influence of every other name is claimed", "anchors": ["jinja-lsp/src/lsp_files.rs: read_variables", "jinja-lsp/src/lsp_files.rs: completion", "jinja-lsp/src/channels/lsp.rs: completion"]}
