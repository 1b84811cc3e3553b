{"claims": [
 {"property": "C01", "status": "partial", "theorems": ["JinjaLsp.C01_history_partial", "JinjaLsp.C01_edit_partial", "JinjaLsp.C01_batch_partial", "JinjaLsp.C01_ascii_partial", "JinjaLsp.C01_offset_drift", "JinjaLsp.C01_refuted_nonascii", "JinjaLsp.C01_refuted_column", "JinjaLsp.C01_refuted_formfeed", "JinjaLsp.C01_exact"], "note": "Proved for histories of plain edits (the lines above a position are ASCII without VT/FF, its column lies inside the line and no character before it in the line needs two UTF-16 units). C01_exact: in texts whose line terminators are LF, CR and CR LF only, these are exactly the edits the server gets right for every inserted text. The full claim is false: the three refuted theorems give a valid edit after which server and editor disagree (non-ASCII text, column past the line end, form feed), and C01_offset_drift gives the size of the error."},
 {"property": "C02", "status": "partial", "theorems": ["JinjaLsp.C02_full_change_ignored", "JinjaLsp.C02_stale_tree"], "note": "The claim is false: C02_full_change_ignored and C02_stale_tree show that a change without a range is never honoured and leaves earlier edits of the same notification applied with the old tree. Proved part: purely ranged notifications keep text and tree together (C03_fresh_partial)."},
 {"property": "C03", "status": "partial", "theorems": ["JinjaLsp.C03_fresh_partial", "JinjaLsp.C03_start"], "note": "Invariant over all histories without range-less changes, assuming the incremental parser never fails and files keep their language class on disk; the excluded case is refuted by C02_stale_tree."},
 {"property": "C04", "status": "partial", "theorems": ["JinjaLsp.C04_handed_partial", "JinjaLsp.C04_regions_partial", "JinjaLsp.C04_new_end_partial", "JinjaLsp.C04_append_wrong", "JinjaLsp.C04_new_end_exact", "JinjaLsp.C04_line_exact"], "note": "Start and old end are exact for every in-range forward change with plain positions; the new end point is right, in plain texts, exactly when the old text from the start of the edit leads to the same row and column as the inserted one (C04_new_end_exact), without line breaks: when the rest of the line is at least as long (C04_line_exact), so never when typing at the end of a line. C04_append_wrong refutes the claim in general (new end is computed in the old text)."},
 {"property": "C05", "status": "proved", "theorems": ["JinjaLsp.C05_roundtrip", "JinjaLsp.C05_monotone", "JinjaLsp.C05_inverse"], "note": "For texts below 4 GiB (positions are u32)."},
 {"property": "C06", "status": "proved", "theorems": ["JinjaLsp.C06_edit_crash_iff", "JinjaLsp.C06_forward_ok", "JinjaLsp.C06_valid_edit_crashes", "JinjaLsp.C06_notification_crash_iff", "JinjaLsp.C06_dead_worker", "JinjaLsp.C06_after_crash", "JinjaLsp.C06_never_revived"], "note": "Crash condition characterised exactly, per edit and per notification; in-range forward edits are safe; after a crash every reply is empty, for ever. C06_valid_edit_crashes exhibits a valid edit that crashes."},
 {"property": "C07", "status": "partial", "theorems": ["JinjaLsp.C07_at_most_one_partial", "JinjaLsp.C07_last_changed_partial", "JinjaLsp.C07_lost_reanalysis", "JinjaLsp.C07_two_pending", "JinjaLsp.C07_pending_stays", "JinjaLsp.C07_expiry_saves"], "note": "At most one pending re-analysis and it is for the last changed document, in runs without quick fixes or workspace reloads; C07_lost_reanalysis and C07_two_pending refute the rest (a change to a second document cancels the first one's re-analysis; a reload detaches a pending timer)."},
 {"property": "C08", "status": "proved", "theorems": ["JinjaLsp.C08_unknown_document"], "note": ""},
 {"property": "C09", "status": "proved", "theorems": ["JinjaLsp.C09_independent"], "note": ""},
 {"property": "C10", "status": "proved", "theorems": ["JinjaLsp.C10_unsupported", "JinjaLsp.C10_last_extension"], "note": ""},
 {"property": "C11", "status": "proved", "theorems": ["JinjaLsp.C11_scopes", "JinjaLsp.C11_symbols"], "note": "Assumes the capture order described in DESIGN.md for well-nested templates; C11_symbols states it through didOpen and documentSymbol."},
 {"property": "C12", "status": "partial", "theorems": ["JinjaLsp.C12_toplevel_branches_partial", "JinjaLsp.C12_toplevel_endset_partial", "JinjaLsp.C12_else_refuted", "JinjaLsp.C12_loop_else_refuted", "JinjaLsp.C12_endset_refuted", "JinjaLsp.C12_inline_if_refuted"], "note": "The claim is false in general: C12_else_refuted, C12_loop_else_refuted, C12_endset_refuted and C12_inline_if_refuted show, for all templates of the given shapes, the wrong scopes recorded. Proved: constructs at top level leave everything outside them unchanged. The exact rule for every tag sequence is C64."},
 {"property": "C13", "status": "partial", "theorems": ["JinjaLsp.C13_key_partial", "JinjaLsp.C13_no_loop_value"], "note": "C13_no_loop_value refutes the claim for every template (no second target is ever recorded); the first target is recorded with the right scope."},
 {"property": "C14", "status": "proved", "theorems": ["JinjaLsp.C14_from_text"], "note": ""},
 {"property": "C15", "status": "proved", "theorems": ["JinjaLsp.C15_definitions", "JinjaLsp.C15_definitions_names", "JinjaLsp.C15_uses", "JinjaLsp.C15_imports", "JinjaLsp.C15_backend"], "note": "For whole-document analyses, and for cursor analyses when the error starts at or before the cursor. Scopes left open at the error end at the end of the document (C15_definitions)."},
 {"property": "C16", "status": "partial", "theorems": ["JinjaLsp.C16_with_recorded", "JinjaLsp.C16_with_partial", "JinjaLsp.C16_with_refuted", "JinjaLsp.C16_macro_partial", "JinjaLsp.C16_macro_refuted"], "note": "True when right-hand sides and defaults contain no identifiers; refuted otherwise for every header (C16_with_refuted, C16_macro_refuted)."},
 {"property": "C17", "status": "partial", "theorems": ["JinjaLsp.C17_uses_partial", "JinjaLsp.C17_reserved_attribute_refuted", "JinjaLsp.C17_reserved_test_refuted"], "note": "For every well-formed sequence of expressions (Spec/Expr.lean); false with attributes of reserved words (loop.index) and tests against reserved words (C17_*_refuted). a[i].b is outside the grammar of the spec and is also attributed to i."},
 {"property": "C18", "status": "partial", "theorems": ["JinjaLsp.C18_hover", "JinjaLsp.C18_code_action", "JinjaLsp.C18_goto", "JinjaLsp.C18_completion_partial", "JinjaLsp.C18_multiline_refuted", "JinjaLsp.C18_last_column_refuted"], "note": "hover, code action and goto never fail arithmetically when no operator starts at the first character of the document (true of the grammar); completion needs names on one line and a column below 2^32-1; the two refutations show that these conditions are needed. goto can still panic by Url::parse(..).unwrap(), see C37."},
 {"property": "C19", "status": "partial", "theorems": ["JinjaLsp.C19_filter_partial", "JinjaLsp.C19_identifier", "JinjaLsp.C19_test", "JinjaLsp.C19_origin_refuted"], "note": "Identifier and test completion as stated; filter completion except at the very first position of a document, where it is offered in every template (C19_origin_refuted)."},
 {"property": "C20", "status": "partial", "theorems": ["JinjaLsp.C20_identifier_prefix", "JinjaLsp.C20_template_prefix", "JinjaLsp.C20_typed_partial", "JinjaLsp.C20_attribute_refuted", "JinjaLsp.C20_quoted_refuted"], "note": "Always a prefix; equal to the typed text for variable, filter and test names. False for attributes and for quoted template names (C20_*_refuted)."},
 {"property": "C21", "status": "partial", "theorems": ["JinjaLsp.C21_goto_partial", "JinjaLsp.C21_inner_quote_refuted", "JinjaLsp.C21_completion_partial"], "note": "Proved for names without quote characters inside, and for completion for single-line ASCII names; C21_inner_quote_refuted: for a name such as it's.html another file is opened."},
 {"property": "C22", "status": "proved", "theorems": ["JinjaLsp.C22_backend_variables"], "note": "Stated through didOpen of a backend file whose captured texts are valid UTF-8."},
 {"property": "C23", "status": "proved", "theorems": ["JinjaLsp.C23_template_references"], "note": "Stated through didOpen; the recorded references are exactly the first string arguments after accepted calls, in order."},
 {"property": "C24", "status": "proved", "theorems": ["JinjaLsp.C24_snippets"], "note": "For cursor columns below 2^32-1 and a first or character-triggered completion request."},
 {"property": "C25", "status": "partial", "theorems": ["JinjaLsp.C25_reports_partial", "JinjaLsp.C25_wellnested_partial", "JinjaLsp.C25_broken"], "note": "Reports of a save or an open are exactly those of the specification over the recorded definitions; for well-nested templates the definitions are those of the template (C25_wellnested_partial). A file with a syntax error loses its definitions (C25_broken)."},
 {"property": "C26", "status": "partial", "theorems": ["JinjaLsp.C26_silent_partial", "JinjaLsp.C26_established_partial", "JinjaLsp.C26_failed_start_refuted", "JinjaLsp.C26_missing_unchanged", "JinjaLsp.C26_start_missing_unchanged"], "note": "No undefined report while the workspace hides them, which every successful start with the setting brings about; a start that fails leaves the old setting in force (C26_failed_start_refuted). Missing-template reports do not depend on the setting."},
 {"property": "C27", "status": "partial", "theorems": ["JinjaLsp.C27_known_partial", "JinjaLsp.C27_own_block_refuted", "JinjaLsp.C27_template_name_refuted"], "note": "The name is always in the table of another file or is a block of this file; the two refutations show that this is weaker than being defined in another file."},
 {"property": "C28", "status": "partial", "theorems": ["JinjaLsp.C28_template_partial", "JinjaLsp.C28_backend_partial", "JinjaLsp.C28_other_error_refuted"], "note": "Exact up to look-ups that fail otherwise than with NotFound, which are never reported (C28_other_error_refuted); templates for open and save, backend files for open."},
 {"property": "C29", "status": "proved", "theorems": ["JinjaLsp.C29_looks_below", "JinjaLsp.C29_checked_path"], "note": "Both as a statement about the path that is checked and as non-interference: file systems that agree below the templates directory give the same diagnostics."},
 {"property": "C30", "status": "partial", "theorems": ["JinjaLsp.C30_plain_partial", "JinjaLsp.C30_absolute_refuted"], "note": "For names written as plain relative paths; C30_absolute_refuted: for a name with a leading slash goto opens the absolute path although the path below the templates directory was checked."},
 {"property": "C31", "status": "partial", "theorems": ["JinjaLsp.C31_save_publishes_partial", "JinjaLsp.C31_published_partial", "JinjaLsp.C31_unreadable_refuted"], "note": "Proved for documents whose statement keywords can be read as text; C31_unreadable_refuted: otherwise the save is a panic."},
 {"property": "C32", "status": "partial", "theorems": ["JinjaLsp.C32_open_publishes_partial", "JinjaLsp.C32_first_error_refuted"], "note": "Backend files, templates without syntax error and templates analysed before; C32_first_error_refuted: the first open of a template with a syntax error publishes nothing."},
 {"property": "C33", "status": "partial", "theorems": ["JinjaLsp.C33_never_analysed_partial", "JinjaLsp.C33_refuted"], "note": "False for templates that were analysed before (C33_refuted); holds while the template was never analysed."},
 {"property": "C34", "status": "proved", "theorems": ["JinjaLsp.C34_faithful", "JinjaLsp.C34_analysis_published"], "note": "For results whose file names are URLs (Url::parse(..).unwrap()) and positions below 2^32, which tree-sitter guarantees."},
 {"property": "C35", "status": "proved", "theorems": ["JinjaLsp.C35_latest", "JinjaLsp.C35_opened", "JinjaLsp.C35_any_order"], "note": "Goto-definition on a name used in a well-formed expression: C35_latest for every table of definitions, C35_opened for a template just opened. The latest is the one with the greatest start; positions are 32-bit."},
 {"property": "C36", "status": "partial", "theorems": ["JinjaLsp.C36_cross_file_partial", "JinjaLsp.C36_template_name_refuted"], "note": "C36_cross_file_partial: exactly the recorded entries of other files with that first segment, up to order, for every hash order. False as stated: entries that are template references are returned, too (C36_template_name_refuted)."},
 {"property": "C37", "status": "partial", "theorems": ["JinjaLsp.C37_not_url_refuted", "JinjaLsp.C37_urls_partial"], "note": "False: C37_not_url_refuted (an entry under a name that is not a URL, e.g. a link hint). C37_urls_partial: normal termination for every document and position when all entries have URLs."},
 {"property": "C38", "status": "proved", "theorems": ["JinjaLsp.C38_offered", "JinjaLsp.C38_no_other", "JinjaLsp.C38_kinds_partial", "JinjaLsp.C38_start"], "note": "C38_offered: the items of the file's own variables are exactly the usable names with the typed prefix, once each; all further items are backend variables (C39). C38_no_other restates that per item for templates without backend variables; C38_kinds_partial and C38_start show this holds throughout every history, except for links to files of another class."},
 {"property": "C39", "status": "partial", "theorems": ["JinjaLsp.C39_all_partial", "JinjaLsp.C39_duplicates_refuted", "JinjaLsp.C39_prefix_refuted"], "note": "C39_all_partial: every backend variable is offered. False as stated: C39_duplicates_refuted (offered twice when the file has a usable variable of that name), C39_prefix_refuted (typed prefix ignored)."},
 {"property": "C40", "status": "partial", "theorems": ["JinjaLsp.C40_replaced_partial", "JinjaLsp.C40_vscode_refuted", "JinjaLsp.C40_range_refuted", "JinjaLsp.C40_attribute_refuted"], "note": "C40_replaced_partial: editors other than VS Code, ASCII text before the name, no attribute of the name or the next one following. False otherwise: C40_vscode_refuted (the typed prefix is inserted instead of the name), C40_range_refuted (text up to the attribute of the next name is deleted), C40_attribute_refuted (the first attribute of the name is deleted)."},
 {"property": "C41", "status": "partial", "theorems": ["JinjaLsp.C41_labels_partial", "JinjaLsp.C41_twice_refuted", "JinjaLsp.C41_trailing_refuted", "JinjaLsp.C41_here_refuted", "JinjaLsp.C41_accepted_partial", "JinjaLsp.C41_vscode_refuted"], "note": "C41_labels_partial (name of the directory once in every URI) and C41_accepted_partial (editors other than VS Code). False otherwise: C41_twice_refuted, C41_trailing_refuted (./templates/), C41_here_refuted (.), C41_vscode_refuted (overlapping edits)."},
 {"property": "C42", "status": "partial", "theorems": ["JinjaLsp.C42_offered_partial", "JinjaLsp.C42_outlier_refuted"], "note": "C42_offered_partial. False as stated: C42_outlier_refuted (one selected template outside the configured directory, or a dot in the directory name, and nothing is offered)."},
 {"property": "C43", "status": "partial", "theorems": ["JinjaLsp.C43_local_partial", "JinjaLsp.C43_elsewhere_partial", "JinjaLsp.C43_template_name_refuted", "JinjaLsp.C43_unrecorded_refuted", "JinjaLsp.C43_any_order"], "note": "Shown: with a visible definition in the file, hover shows the kind of the one that starts last (C43_local_partial); without, `Backend variable` exactly when another file has an entry whose first segment is the name, for every hash order (C43_elsewhere_partial). False: entries that are template names count as variables (C43_template_name_refuted); in a file nothing was recorded for hover shows nothing (C43_unrecorded_refuted). Covers cursors on the name itself, not on its attributes."},
 {"property": "C44", "status": "partial", "theorems": ["JinjaLsp.C44_one_entry", "JinjaLsp.C44_filter", "JinjaLsp.C44_test_partial", "JinjaLsp.C44_reserved_refuted"], "note": "Filters: own entry or nothing (C44_filter); tests other than reserved words likewise (C44_test_partial); one entry per name and the documentation file is the one named after it (C44_one_entry, about the constant tables). False for the documented tests true and false: hovering them shows nothing (C44_reserved_refuted)."},
 {"property": "C45", "status": "proved", "theorems": ["JinjaLsp.C45_symbols", "JinjaLsp.C45_none"], "note": "C45_symbols: one symbol per recorded definition in order with name, kind and range (positions below 2^32); C45_none for files without records. That the records are the definitions of the text is C11/C12."},
 {"property": "C46", "status": "partial", "theorems": ["JinjaLsp.C46_inside_partial", "JinjaLsp.C46_outside", "JinjaLsp.C46_analysed", "JinjaLsp.C46_no_directory_refuted", "JinjaLsp.C46_window_refuted"], "note": "C46_inside_partial and C46_outside: after an analysis result was published and its quick fixes processed, until the document is analysed again (any number of other messages), a request inside a reported missing name offers a template reported there, outside never; C46_analysed links this to opening/saving and publication. False: without the templates directory the list is empty (C46_no_directory_refuted); after a save the quick fixes are forgotten before the new diagnostics are published (C46_window_refuted)."},
 {"property": "C47", "status": "partial", "theorems": ["JinjaLsp.C47_created", "JinjaLsp.C47_scheduled_partial", "JinjaLsp.C47_expires", "JinjaLsp.C47_not_loaded_refuted", "JinjaLsp.C47_asked_refuted", "JinjaLsp.C47_empty_refuted"], "note": "C47_created: for every state the offered file is the canonical templates directory followed by the components of a name recorded as missing at that position, never an overwrite. C47_scheduled_partial and C47_expires: each answered request schedules exactly one analysis, which saves the document when due. False: nothing is analysed before the workspace was loaded (C47_not_loaded_refuted); requests, not uses, schedule analyses (C47_asked_refuted); for an empty name the file is the directory itself (C47_empty_refuted)."},
 {"property": "C48", "status": "proved", "theorems": ["JinjaLsp.C48_message", "JinjaLsp.C48_session", "JinjaLsp.C48_published"], "note": "Messages, whole sessions and published diagnostics agree for any two hash orders, up to the order inside lists the code builds from hash maps. Assumes every file:/// + path parses as a URL; this only matters for whether a quick fix panics. For overlapping missing names a different one of them may be offered."},
 {"property": "C49", "status": "proved", "theorems": ["JinjaLsp.C49_request", "JinjaLsp.C49_requests", "JinjaLsp.C49_invisible"], "note": "Query requests change neither the stored state nor what later messages do or publish. Requests that panic are covered by C18 and C37."},
 {"property": "C50", "status": "partial", "theorems": ["JinjaLsp.C50_function_partial", "JinjaLsp.C50_open_text_refuted", "JinjaLsp.C50_saved_partial"], "note": "C50_function_partial: after a successful (re)initialisation two servers with the same configuration have the same workspace and send the same diagnostics. C50_saved_partial: saved documents in a configured directory keep their text. C50_open_text_refuted: for every document whose editor text differs from the file on disk, the text is lost at the next successful (re)initialisation."},
 {"property": "C51", "status": "proved", "theorems": ["JinjaLsp.C51_language", "JinjaLsp.C51_walk", "JinjaLsp.C51_otherwise"], "note": "For every state, configuration and disk: unsupported language or an error at any entry of any walk leaves the server exactly as it was with nothing sent (C51_language, C51_walk); C51_otherwise: these are the only reasons. Assumes that parsing does not fail and that captured texts of a fresh tree are readable, otherwise the walk could panic before reaching the error."},
 {"property": "C52", "status": "proved", "theorems": ["JinjaLsp.C52_options", "JinjaLsp.C52_project", "JinjaLsp.C52_kept", "JinjaLsp.C52_in_force"], "note": "Options, project files in order, and every later message history. Deserialisation of JSON and TOML is a parameter of the model."},
 {"property": "C53", "status": "partial", "theorems": ["JinjaLsp.C53_bounded", "JinjaLsp.C53_stuck_iff", "JinjaLsp.C53_dead_iff", "JinjaLsp.C53_progress_partial", "JinjaLsp.C53_survivor_partial", "JinjaLsp.C53_self_deadlock_refuted", "JinjaLsp.C53_mutual_deadlock_refuted"], "note": "C53_bounded: capacities hold in every reachable state. Deadlock freedom is false: C53_self_deadlock_refuted and C53_mutual_deadlock_refuted give, from every idle state, schedules after which no task ever takes a step again. C53_stuck_iff and C53_dead_iff characterise exactly when this is so; C53_progress_partial and C53_survivor_partial: progress while the worker's queue has room or when one task has ended."},
 {"property": "C54", "status": "proved", "theorems": ["JinjaLsp.C54_session", "JinjaLsp.C54_contributes"], "note": "Every session: the final state and all other answers are those of the session without the close notifications; source variables of closed files are still offered."},
 {"property": "C55", "status": "proved", "theorems": ["JinjaLsp.C55_history", "JinjaLsp.C55_format", "JinjaLsp.C55_session"], "note": "Flag after every history, format of every completion answer, and both combined for every session."},
 {"property": "C56", "status": "proved", "theorems": ["JinjaLsp.C56_documents", "JinjaLsp.C56_trees", "JinjaLsp.C56_diagnostics"], "note": "C56_documents holds without assumptions; C56_trees and C56_diagnostics assume that parsing does not fail and that a regular file reported by the walk keeps its extension when made canonical (links are reported as links)."},
 {"property": "C57", "status": "partial", "theorems": ["JinjaLsp.C57_hints", "JinjaLsp.C57_session_partial", "JinjaLsp.C57_unit", "JinjaLsp.C57_same_name_refuted"], "note": "The variables stored under a hint name are exactly those of the latest save since the last removal, for every sequence of node API calls that opens or deletes no document of that name. Missing: a document whose URI equals the hint name (C57_same_name_refuted: opening it replaces the hint)."},
 {"property": "C58", "status": "partial", "theorems": ["JinjaLsp.C58_links_partial", "JinjaLsp.C58_filter_refuted", "JinjaLsp.C58_python_partial"], "note": "Exact: a link per saved temp hint with the same dotted path, at the path's range shifted by the line, for all used names. Missing: the claim's restriction to variables; names of filters and tests are linked too (C58_filter_refuted). C58_python_partial covers the backend entry point."},
 {"property": "C59", "status": "partial", "theorems": ["JinjaLsp.C59_hover", "JinjaLsp.C59_complete", "JinjaLsp.C59_goto", "JinjaLsp.C59_variables", "JinjaLsp.C59_above_debug_partial", "JinjaLsp.C59_above_release_refuted"], "note": "Hover, completion, definitions and variables of a document opened at line k are those of the document opened at line 0, moved by k; a position above the offset panics in debug builds. Missing: release builds, where it wraps around instead of being rejected (C59_above_release_refuted)."},
 {"property": "C60", "status": "partial", "theorems": ["JinjaLsp.C60_delete_partial", "JinjaLsp.C60_backend_tree_refuted", "JinjaLsp.C60_hint_refuted"], "note": "Documents, template trees and variables whose identifier contains the name are gone and the others untouched. Missing: backend trees, which remain (C60_backend_tree_refuted); variables of a hint whose name contains the file name stay when no document has that name (C60_hint_refuted)."},
 {"property": "C61", "status": "partial", "theorems": ["JinjaLsp.C61_names_partial", "JinjaLsp.C61_description_refuted", "JinjaLsp.C61_unread_refuted", "JinjaLsp.C61_typed_partial", "JinjaLsp.C61_typed_refuted"], "note": "The names of the hints saved under temp are offered with no typed prefix (C61_names_partial) and, if the file has variables under its bare name, with one (C61_typed_partial). Missing: the description shown is that saved under temp_ (C61_description_refuted), unread documents (C61_unread_refuted), and the other typed case (C61_typed_refuted)."},
 {"property": "C62", "status": "partial", "theorems": ["JinjaLsp.C62_groups", "JinjaLsp.C62_paths_partial", "JinjaLsp.C62_prefix_refuted", "JinjaLsp.C62_same_start_refuted"], "note": "Exact result of the merge for every list of captures and every hash order (C62_groups); dotted paths with different start positions are reassembled (C62_paths_partial). Missing: expressions that begin with a call or subscript (C62_prefix_refuted) and two that start at the same place (C62_same_start_refuted)."},
 {"property": "C63", "status": "partial", "theorems": ["JinjaLsp.C63_queries_partial", "JinjaLsp.C63_navigation_partial", "JinjaLsp.C63_updates_partial", "JinjaLsp.C63_python_refuted"], "note": "All queries agree that do not use the backend grammar, all completions and definitions in templates and in Rust workspaces, and updates of Rust workspaces commute with cloning. Missing: backend files of Python workspaces, since the clone has Rust parsers and queries (C63_python_refuted)."},
 {"property": "C64", "status": "proved", "theorems": ["JinjaLsp.C64_bracket_matching"], "note": "Same capture-order assumption as C11."},
 {"property": "C65", "status": "proved", "theorems": ["JinjaLsp.C65_in_order", "JinjaLsp.C65_ended", "JinjaLsp.C65_last_shown", "JinjaLsp.C65_positions", "JinjaLsp.C65_small", "JinjaLsp.C65_words"], "note": "C65_in_order, C65_last_shown: while the diagnostics task lives; C65_ended: also when it has ended (it ends at a file name that is not a URL), nothing else has been published. Proviso: positions of the reports are below 2^32 (otherwise they are truncated, C34); C65_small shows that this holds in every execution if the positions the parser reports are (tree-sitter's TSPoint is 32-bit; C65_words is C65_in_order with that assumption alone), so the hypothesis SmallResults here and in C69, C82, C85, C97, C123 is a fact about tree-sitter only. C65_positions: whatever holds of 0:0 and of all positions the parser reports holds of all reported positions. For the last list: names of files are URLs in normal form"},
 {"property": "C66", "status": "proved", "theorems": ["JinjaLsp.C66_executions", "JinjaLsp.C66_sequential"], "note": "the states may differ in delays that have already expired; the message of an expired delay is an internal didSave"},
 {"property": "C67", "status": "proved", "theorems": ["JinjaLsp.C67_survives", "JinjaLsp.C67_reading", "JinjaLsp.C67_doomed"], "note": "Assumptions on tree-sitter, the url crate and the file system are explicit hypotheses (`Spec.Sound`, `Spec.Orderly`)."},
 {"property": "C68", "status": "proved", "theorems": ["JinjaLsp.C68_in_step", "JinjaLsp.C68_reread_refuted", "JinjaLsp.C68_reset_refuted"], "note": "Sessions without re-initialisation. `C68_reset_refuted` and `C68_reread_refuted` show that the claim fails with one."},
 {"property": "C69", "status": "proved", "theorems": ["JinjaLsp.C69_shown", "JinjaLsp.C69_wellnested", "JinjaLsp.C69_unloaded_refuted"], "note": "For the document changed last, in a loaded workspace (`C69_shown`; the exact list for well-nested templates is `C69_wellnested`). `C69_unloaded_refuted`: false before the workspace was loaded. For documents changed earlier see `C07_lost_reanalysis`."},
 {"property": "C70", "status": "proved", "theorems": ["JinjaLsp.C70_symbols"], "note": "For every syntax tree that reads as a sequence of tags (`Spec.Tags`). That tree-sitter's grammar yields such a tree for a text is not modelled."},
 {"property": "C71", "status": "proved", "theorems": ["JinjaLsp.C71_diagnostics"], "note": "For syntax trees that read as tags, uses and references, when globals are not ignored; uses in order, references up to order."},
 {"property": "C72", "status": "proved", "theorems": ["JinjaLsp.C72_analysed_iff"], "note": "Both directions, for all syntax trees; nothing is assumed about their shape."},
 {"property": "C73", "status": "proved", "theorems": ["JinjaLsp.C73_symbols", "JinjaLsp.C73_uses"], "note": "For all syntax trees; what counts as a digit is a parameter (the regular expression's `\\d`)."},
 {"property": "C74", "status": "proved", "theorems": ["JinjaLsp.C74_rust_exact", "JinjaLsp.C74_session"], "note": "Exact, for all syntax trees without error nodes whose texts are readable. `C74_session`: at every point of every session, for files whose changes were saved."},
 {"property": "C75", "status": "partial", "theorems": ["JinjaLsp.C75_keys_partial", "JinjaLsp.C75_other_macro_refuted", "JinjaLsp.C75_value_refuted"], "note": "`C75_keys_partial`: nothing is missing. The converse is false: identifiers in any other macro (`C75_other_macro_refuted`) and values in context! (`C75_value_refuted`) are recorded too. C74 says exactly what is."},
 {"property": "C76", "status": "proved", "theorems": ["JinjaLsp.C76_python_exact", "JinjaLsp.C76_session"], "note": "Exact, for all syntax trees without error nodes whose texts are readable. `C76_session`: at every point of every session."},
 {"property": "C77", "status": "partial", "theorems": ["JinjaLsp.C77_plain_partial", "JinjaLsp.C77_receiver_refuted", "JinjaLsp.C77_foreign_table_refuted"], "note": "`C77_plain_partial`: calls on plain names and the tables of jinja_env are recorded. False in both directions: calls on longer receivers are missed (`C77_receiver_refuted`), tables of unrelated dotted objects are recorded (`C77_foreign_table_refuted`). C76 says exactly what is."},
 {"property": "C78", "status": "proved", "theorems": ["JinjaLsp.C78_rust", "JinjaLsp.C78_python", "JinjaLsp.C78_session_rust", "JinjaLsp.C78_session_python"], "note": "`C78_rust` and `C78_python`; in Python a plain name anywhere in a dotted callee counts. `C78_session_rust`, `C78_session_python`: at every point of every session."},
 {"property": "C79", "status": "partial", "theorems": ["JinjaLsp.C79_order", "JinjaLsp.C79_text", "JinjaLsp.C79_session", "JinjaLsp.C79_filter", "JinjaLsp.C79_outdated_refuted", "JinjaLsp.C79_symbols_refuted"], "note": "texts, syntax trees and order proved for all executions (C79_session, C79_order, C79_text; for filters the whole answer, C79_filter). Refuted for definitions: no change has any effect on the recorded definitions until the next analysis (C79_outdated_refuted), so an emptied document still has symbols (C79_symbols_refuted)"},
 {"property": "C80", "status": "partial", "theorems": ["JinjaLsp.C80_announced_partial", "JinjaLsp.C80_served_partial", "JinjaLsp.C80_never_opened_refuted", "JinjaLsp.C80_warn_refuted", "JinjaLsp.C80_will_save_refuted", "JinjaLsp.C80_context_refuted"], "note": "what is allowed reaches the worker and is answered with its kind (C80_announced_partial, C80_served_partial). Refuted: openClose is not announced, so for a conforming client a document that is not on disk is never known (C80_never_opened_refuted); the command warn does nothing (C80_warn_refuted); willSave is announced and ignored (C80_will_save_refuted); completion without context is never answered (C80_context_refuted)"},
 {"property": "C81", "status": "partial", "theorems": ["JinjaLsp.C81_regions_partial", "JinjaLsp.C81_points_partial", "JinjaLsp.C81_unobservable_partial", "JinjaLsp.C81_reopened_refuted", "JinjaLsp.C81_append_refuted", "JinjaLsp.C81_observable_refuted"], "note": "proved for histories in which documents are opened with the held text, if any, and changes are between plain positions: regions are told truly (C81_regions_partial); if the columns at which the inserted text ends exist before, so are all points (C81_points_partial), and then re-use is unobservable (C81_unobservable_partial). Refuted: opening a held document with another text re-uses the tree of the old text (C81_reopened_refuted, seen from outside: C81_observable_refuted); every appended text is told to end where it begins (C81_append_refuted)"},
 {"property": "C82", "status": "proved", "theorems": ["JinjaLsp.C82_displayed", "JinjaLsp.C82_outline"], "note": "For the document changed last, a template, in a loaded workspace, when globals are not ignored (`C82_displayed`); the symbols: `C82_outline`. Uses in order, references up to order."},
 {"property": "C83", "status": "proved", "theorems": ["JinjaLsp.C83_analysed", "JinjaLsp.C83_rest", "JinjaLsp.C83_goto", "JinjaLsp.C83_goto_elsewhere", "JinjaLsp.C83_hover", "JinjaLsp.C83_hover_elsewhere", "JinjaLsp.C83_hover_documented"], "note": "`C83_analysed`, `C83_rest`: when a template counts as analysed. `C83_goto`, `C83_goto_elsewhere`, `C83_hover`, `C83_hover_elsewhere`, `C83_hover_documented`: the answers, for trees whose nodes are in document order (`Spec.Laid`) and cursors inside the name (not behind its last character). Tests named `true` or `false` are reserved words and not uses (C44)."},
 {"property": "C84", "status": "proved", "theorems": ["JinjaLsp.C84_goto", "JinjaLsp.C84_goto_missing", "JinjaLsp.C84_rest"], "note": "`C84_goto`, `C84_goto_missing`: the answers, for trees whose nodes are in document order (`Spec.Laid`) and names without quotes inside (otherwise false, C21). `C84_rest`: with what is shown at rest; for names that start with a slash it is false (C30). The first dotted segment of `./x.html` is empty, so a missing name can lead to a string of a backend file."},
 {"property": "C85", "status": "proved", "theorems": ["JinjaLsp.C85_offered", "JinjaLsp.C85_tree"], "note": "`C85_offered`, `C85_tree`; the templates directory must exist when the fix is requested and paths below it must be URLs (otherwise nothing is offered, C46), the workspace must have been loaded. Before everything is processed the fixes may be missing (`C46_window_refuted`)."},
 {"property": "C86", "status": "proved", "theorems": ["JinjaLsp.C86_snippets", "JinjaLsp.C86_filters", "JinjaLsp.C86_names", "JinjaLsp.C86_tests", "JinjaLsp.C86_nothing", "JinjaLsp.C86_templates", "JinjaLsp.C86_typed"], "note": "`C86_snippets`, `C86_filters`, `C86_names`, `C86_typed`, `C86_tests`, `C86_templates`, `C86_nothing`. Observed on the way: tests are never offered inside `{{ }}` (names are), typing a filter offers variables, snippets are never offered in a second error. The tree must be regular (`Regular`: order and nesting of nodes as tree-sitter produces them, no errors)."},
 {"property": "C87", "status": "proved", "theorems": ["JinjaLsp.C87_bounded", "JinjaLsp.C87_no_deadlock", "JinjaLsp.C87_end", "JinjaLsp.C87_eventually", "JinjaLsp.C87_settles", "JinjaLsp.C87_shown", "JinjaLsp.C87_answered", "JinjaLsp.C87_exact", "JinjaLsp.C87_polite"], "note": "`C87_bounded` (a), `C87_end` (b), `C87_no_deadlock`, `C87_exact`, `C87_polite` (c), `C87_eventually`, `C87_settles` (d), `C87_answered` (e), `C87_shown` (f). No fairness is assumed: there are no infinite runs without the client. `Spec.Eventually` is inevitability: `P` now, or some step is possible and `P` is inevitable after every step. That a delay is over eventually, and that a task that can take a step is run, is what tokio must provide."},
 {"property": "C88", "status": "proved", "theorems": ["JinjaLsp.C88_since", "JinjaLsp.C88_saved", "JinjaLsp.C88_earlier_refuted", "JinjaLsp.C88_elsewhere_refuted"], "note": "`C88_since` (a), `C88_saved` (b), `C88_earlier_refuted` (c), `C88_elsewhere_refuted` (d). Only the list in question has to be small enough for 32 bits (`Small ds`), not all results as in C69. For the document changed last see C69."},
 {"property": "C89", "status": "proved", "theorems": ["JinjaLsp.C89_future", "JinjaLsp.C89_as_new", "JinjaLsp.C89_executions", "JinjaLsp.C89_error_refuted", "JinjaLsp.C89_unsaved_refuted"], "note": "`C89_future` (any two histories), `C89_as_new` (same start, settings unchanged since), `C89_executions` (interleaved executions), `C89_error_refuted` (a), `C89_unsaved_refuted` (b). Assumed of tree-sitter: a parse with an old tree cannot be told from one without (`Stateless`), parsing does not fail; of the world: canonicalisation keeps the class of a file. Changes carry ranges (whole-document changes: C02). Quick fix requests are left out, since the recorded missing templates arrive with a delay (C86)."},
 {"property": "C90", "status": "proved", "theorems": ["JinjaLsp.C90_exact", "JinjaLsp.C90_dotted", "JinjaLsp.C90_none", "JinjaLsp.C90_call_refuted", "JinjaLsp.C90_error_refuted"], "note": "`C90_exact` (all trees), `C90_dotted` (dotted names of any length), `C90_none`, `C90_call_refuted` (a), `C90_error_refuted` (b). The shape of attribute nodes of the Python grammar (`DottedName`: object, dot, name) is assumed of tree-sitter-python, as is that matches are reported in document order of the captured nodes."},
 {"property": "C91", "status": "proved", "theorems": ["JinjaLsp.C91_total", "JinjaLsp.C91_uses", "JinjaLsp.C91_error_refuted", "JinjaLsp.C91_at_most"], "note": "`C91_total`, `C91_uses`, `C91_at_most`, `C91_error_refuted` (what comes after the first error does not count)"},
 {"property": "C92", "status": "proved", "theorems": ["JinjaLsp.C92_reports", "JinjaLsp.C92_references", "JinjaLsp.C92_symbols", "JinjaLsp.C92_renamed", "JinjaLsp.C92_inserted"], "note": "C92_reports (uses, in order), C92_references (missing templates, up to the order of the hash map), C92_symbols; C92_renamed and C92_inserted are the two common cases. Names stand behind a delimiter, so they are not at the very beginning of the file; a moved beginning needs that no recorded scope ends at the very beginning, since the code reads the position (0, 0) as 'global'."},
 {"property": "C93", "status": "partial", "theorems": ["JinjaLsp.C93_statements", "JinjaLsp.C93_inserted_partial", "JinjaLsp.C93_next_character_refuted", "JinjaLsp.C93_literal_refuted", "JinjaLsp.C93_vscode_refuted"], "note": "The texts are complete statements for every harmless filling (C93_statements), and outside VS Code, at the end of a line, accepting inserts exactly the text (C93_inserted_partial). False otherwise: the character behind the cursor is deleted (C93_next_character_refuted), the items are not declared as snippets so that the marks of the places are inserted literally (C93_literal_refuted), and in VS Code the items have no text at all, only their label is inserted (C93_vscode_refuted)."},
 {"property": "C94", "status": "partial", "theorems": ["JinjaLsp.C94_hint_partial", "JinjaLsp.C94_kind", "JinjaLsp.C94_filter", "JinjaLsp.C94_longer_refuted", "JinjaLsp.C94_unknown_refuted", "JinjaLsp.C94_test_refuted"], "note": "Proved for names that have a definition: a hint of exactly this name that no hint of a longer name precedes (C94_hint_partial), the kind when no hint begins with the name (C94_kind), and filters (C94_filter). False otherwise: the first hint whose name begins with the name under the cursor is shown (C94_longer_refuted), names without a definition show nothing even if a hint was told (C94_unknown_refuted), and tests never show their documentation (C94_test_refuted)."},
 {"property": "C95", "status": "partial", "theorems": ["JinjaLsp.C95_commands_beside", "JinjaLsp.C95_commands_partial", "JinjaLsp.C95_commands_refuted", "JinjaLsp.C95_filters", "JinjaLsp.C95_names_refuted"], "note": "Proved: the commands beside names, exactly inside {{ }} (C95_commands_beside), and in a name after its first character (C95_commands_partial); filters directly before the name of a filter (C95_filters); names elsewhere are C86. False directly before any other name: neither names (C95_names_refuted) nor commands (C95_commands_refuted) are offered there."},
 {"property": "C96", "status": "proved", "theorems": ["JinjaLsp.C96_state", "JinjaLsp.C96_answers", "JinjaLsp.C96_reports"], "note": "The two sessions must not panic (a panic caused by another document ends the worker, see C08/C31); the messages they share are processed with the same disk and hash order. Requests whose answers are compared are answered in both sessions; opening and saving succeeds in one iff in the other."},
 {"property": "C97", "status": "partial", "theorems": ["JinjaLsp.C97_agreement_partial", "JinjaLsp.C97_block_refuted", "JinjaLsp.C97_target_refuted", "JinjaLsp.C97_both_refuted", "JinjaLsp.C97_dotted_refuted"], "note": "Proved for names whose definitions in the file are no blocks and do not touch the name, and that are not both defined in the file and known elsewhere, with undotted entries elsewhere. Refuted for the rest: a block's name is reported although goto leads to the block; the target of a definition is not reported but hover shows nothing there; a name defined out of scope here and known elsewhere is reported as undefined although goto and hover find the other file; the first segment of a dotted entry elsewhere is reported as undefined although goto and hover find it."},
 {"property": "C98", "status": "proved", "theorems": ["JinjaLsp.C98_again", "JinjaLsp.C98_same_reports"], "note": "The files on disk are the same at both analyses (empty template names and unknown templates are checked against the disk). 'initialized' is excluded because it resets the workspace. A first opening whose tree cannot be read sends nothing where a save sends an empty list; the statement counts both as no reports. The stored quick fixes are not part of the claim."},
 {"property": "C99", "status": "partial", "theorems": ["JinjaLsp.C99_offered_partial", "JinjaLsp.C99_both_refuted"], "note": "Proved for names whose definitions in the document are blocks or do not touch the name; the second half for names the document defines nowhere (except as blocks). Refuted for the rest of the second half: a name that the document defines where it is not visible and a backend file defines, too, is offered as a backend variable but reported as undefined."},
 {"property": "C100", "status": "proved", "theorems": ["JinjaLsp.C100_accepted", "JinjaLsp.C100_list", "JinjaLsp.C100_nothing_else", "JinjaLsp.C100_same", "JinjaLsp.C100_initialize", "JinjaLsp.C100_changed", "JinjaLsp.C100_missing", "JinjaLsp.C100_wrapped", "JinjaLsp.C100_project"], "note": "Lists are modelled for JSON only (a TOML section that is a list is outside the model)."},
 {"property": "C101", "status": "partial", "theorems": ["JinjaLsp.C101_plugin_refuted", "JinjaLsp.C101_unset_partial"], "note": "True for clients that send no settings (C101_unset_partial). False for the plugin for Visual Studio Code of this repository: it fills in defaults and always sends complete settings, so the project files are never considered, for all well-typed user settings (C101_plugin_refuted)."},
 {"property": "C102", "status": "partial", "theorems": ["JinjaLsp.C102_local_partial", "JinjaLsp.C102_filename_refuted", "JinjaLsp.C102_encoded_refuted", "JinjaLsp.C102_hint_refuted", "JinjaLsp.C102_elsewhere_partial", "JinjaLsp.C102_others_refuted", "JinjaLsp.C102_templates_refuted"], "note": "false in general: a host file name that is not a URL makes the call panic (C102_filename_refuted), one that is written differently in a URL yields nothing (C102_encoded_refuted), hints under the default name make the call panic (C102_hint_refuted), definitions of other templates are only found if their names contain temp (C102_others_refuted) and then at the wrong line (C102_templates_refuted). Proved: the answer for names the template defines, when the file name is a URL that occurs in the name of the document (C102_local_partial), and exactly which places are returned for the other names (C102_elsewhere_partial)"},
 {"property": "C103", "status": "partial", "theorems": ["JinjaLsp.C103_listed", "JinjaLsp.C103_goto", "JinjaLsp.C103_hover", "JinjaLsp.C103_complete", "JinjaLsp.C103_others_refuted", "JinjaLsp.C103_delete_refuted"], "note": "false in general: a name the template does not define becomes a backend variable as soon as another template defines it (C103_others_refuted), and deleting another file deletes the template if the name of that file is part of the name of the template's document (C103_delete_refuted). Proved: the list (C103_listed), goto-definition for names the template defines (C103_goto), hover for these and for filters (C103_hover), and what completion offers up to names that backend files pass to templates (C103_complete), after all calls about other documents, where a file to be deleted counts as other if its name is no part of that of the document"},
 {"property": "C104", "status": "partial", "theorems": ["JinjaLsp.C104_own_text_partial", "JinjaLsp.C104_process_partial", "JinjaLsp.C104_stale_refuted", "JinjaLsp.Node.C104_node"], "note": "false with a range-less change after another change in one notification: the text is then newer than the tree, the next save reads the old tree with the new text and can end the worker (C104_stale_refuted). Proved for all histories without range-less changes (C104_own_text_partial), for all interleavings of the tasks (C104_process_partial) and for all calls of the Node API (C104_node), if parsing does not fail and links keep the class of a file"},
 {"property": "C105", "status": "partial", "theorems": ["JinjaLsp.C105_described", "JinjaLsp.C105_agree_partial", "JinjaLsp.C105_shadowed_refuted"], "note": "false for names with definitions of several kinds that count at the use: completion describes the first one, hover the last one (C105_shadowed_refuted). Proved: which definition an item describes and how, and that items of other files are marked (C105_described); the agreement of completion, hover and outline whenever the definitions that count are of one kind (C105_agree_partial)"},
 {"property": "C106", "status": "proved", "theorems": ["JinjaLsp.C106_order", "JinjaLsp.C106_execution", "JinjaLsp.C106_answer", "JinjaLsp.C106_sequential", "JinjaLsp.C106_once", "JinjaLsp.C106_waiting"], "note": "C106_order, C106_execution: what the handlers do is an execution as in C65-C104, with the messages in the order of the calls. C106_answer, C106_sequential: the answers. C106_once, C106_waiting: none twice, none lost. Assumes that calls are started in the order of arrival and that senders get room in the queue in the order in which they began to wait"},
 {"property": "C107", "status": "partial", "theorems": ["JinjaLsp.C107_bounded", "JinjaLsp.C107_answered_partial", "JinjaLsp.C107_flood_refuted"], "note": "C107_answered_partial: every schedule leads to a state without handlers in which every call not cancelled before is answered, provided at most 50 messages are under way or waiting to be sent. C107_bounded: how many steps there can be at most (7 per message under way, 10 per handler), without that provision. C107_flood_refuted: a reset, 50 notifications and a hover request in one particular order; nothing happens any more, and the request is never answered. Missing: the general claim, which is false"},
 {"property": "C108", "status": "partial", "theorems": ["JinjaLsp.C108_hover", "JinjaLsp.C108_goto_partial", "JinjaLsp.C108_goto_refuted"], "note": "C108_hover: hover on an attribute equals hover on the name, without exception. C108_goto_partial: goto-definition finds the binding if, skipping one capture, no name comes before the next expression. C108_goto_refuted: otherwise it answers with an empty list; `follows_attr`, `follows_filter` and `follows_operand` show that this includes another attribute, a filter and an operand. Missing: goto-definition in those cases, where the claim is false"},
 {"property": "C109", "status": "partial", "theorems": ["JinjaLsp.C109_one_partial", "JinjaLsp.C109_two_refuted", "JinjaLsp.C109_report_refuted", "JinjaLsp.C109_other_refuted"], "note": "C109_one_partial: plain paths. C109_two_refuted: a character that has to be escaped (a blank, a letter outside ASCII), and the file is two documents after any session; C109_report_refuted: a name defined only in the text that was on disk is reported as defined in another file for ever; C109_other_refuted: opening `my page.html` replaces the text of a file called `my%20page.html`. Missing: the general claim, which is false"},
 {"property": "C110", "status": "partial", "theorems": ["JinjaLsp.C110_offered_partial", "JinjaLsp.C110_missing_refuted"], "note": "C110_offered_partial: known templates are files on disk, so every label is found by canonicalize from the templates directory, and no later analysis reports it. C110_missing_refuted: an open document whose name below the templates directory does not exist (not saved yet, or escaped in the URI) is offered, and a reference of that name is then reported. Missing: the general claim, which is false"},
 {"property": "C111", "status": "partial", "theorems": ["JinjaLsp.C111_item", "JinjaLsp.C111_filters", "JinjaLsp.C111_tests_partial", "JinjaLsp.C111_embedded"], "note": "C111_item: any list in any state; C111_filters, C111_tests_partial: exactly the documented ones; C111_embedded: Node API. Missing: the tests true and false (C44_reserved_refuted shows that hover treats them differently)"},
 {"property": "C112", "status": "partial", "theorems": ["JinjaLsp.C112_goto_partial", "JinjaLsp.C112_goto_refuted", "JinjaLsp.C112_place_partial", "JinjaLsp.C112_fix_partial", "JinjaLsp.C112_fix_refuted", "JinjaLsp.C112_created_partial", "JinjaLsp.C112_published_partial", "JinjaLsp.C112_published_refuted"], "note": "C112_goto_partial, C112_place_partial, C112_fix_partial, C112_created_partial, C112_published_partial: for safe paths without something like an escape. C112_goto_refuted, C112_fix_refuted, C112_published_refuted: for every other path of the two kinds the URI names another file. Missing: the general claim, which is false"},
 {"property": "C113", "status": "partial", "theorems": ["JinjaLsp.C113_asked", "JinjaLsp.C113_answers", "JinjaLsp.C113_snippets", "JinjaLsp.C113_filters_refuted", "JinjaLsp.C113_templates_refuted"], "note": "C113_asked, C113_answers, C113_snippets: proved. C113_filters_refuted, C113_templates_refuted: the places where something is offered but the editor does not ask. Missing: the claim that the editor asks wherever something is offered, which is false"},
 {"property": "C114", "status": "proved", "theorems": ["JinjaLsp.C114_reports", "JinjaLsp.C114_opened"], "note": "C114_reports: for any two servers that agree about the template, the second knowing all names the first knows; C114_opened: for a history of newly opened documents"},
 {"property": "C115", "status": "proved", "theorems": ["JinjaLsp.C115_goto", "JinjaLsp.C115_hover"], "note": "C115_goto, C115_hover. Assumed of the trees: positions of names have 32 bits (the protocol's range), operators are not empty (`Measured`); the cursor is not at the origin unless the origin stays where it is; the first segments of names recorded for other files are kept. Hover also assumes that names of documented filters and tests are kept and that two definitions of one name at one place are of one kind"},
 {"property": "C116", "status": "partial", "theorems": ["JinjaLsp.C116_completion_partial", "JinjaLsp.C116_start_refuted"], "note": "False at the very start of a template (C116_start_refuted): the default state of the query looks like a pipe at row 0, column 0, so all filters are offered there, and nothing is offered at the moved position. Proved for all other positions, and for that one if no line is inserted above it"},
 {"property": "C117", "status": "partial", "theorems": ["JinjaLsp.C117_symbols_partial", "JinjaLsp.C117_diagnostics_partial", "JinjaLsp.C117_shifted_refuted", "JinjaLsp.C117_goto_partial", "JinjaLsp.C117_goto_refuted"], "note": "False after characters that are not ASCII (C117_shifted_refuted, C117_goto_refuted): columns of tree-sitter count bytes, columns of the protocol count UTF-16 code units, and none is converted into the other. The range covers the name exactly if the line before the name is ASCII; with the cursor in a name after other characters the server looks further to the left and may answer for another name. Names that are themselves not ASCII are left out"},
 {"property": "C118", "status": "partial", "theorems": ["JinjaLsp.C118_variables_partial", "JinjaLsp.C118_shifted_refuted", "JinjaLsp.C118_links_partial", "JinjaLsp.C118_hover_partial", "JinjaLsp.C118_goto_partial"], "note": "False after characters of the template that are not ASCII, on the same line (C118_shifted_refuted): columns count bytes. For variables this is an equivalence. The characters of the host document before the template may be anything, because the text is padded with one space per UTF-16 code unit. Names that are not ASCII or contain spaces are left out; goto-definition only for file names as in C102_local_partial"},
 {"property": "C119", "status": "partial", "theorems": ["JinjaLsp.C119_startup_partial", "JinjaLsp.C119_reopened", "JinjaLsp.C119_source_refuted"], "note": "C119_startup_partial: templates after an initialisation; C119_reopened: templates and source files after opening or saving (closed and opened again, for instance). C119_source_refuted: missing templates of source files are not reported at the initialisation, but when the unchanged source file is opened. Assumed: parsing does not fail, a parse that is handed the tree of the very same text yields an equivalent tree (`Repeats`), canonicalisation keeps the class of a file, the same files on disk at both analyses. Quick fix requests are not part of the claim (they follow the published list with a delay, C85)"},
 {"property": "C120", "status": "partial", "theorems": ["JinjaLsp.C120_bound_partial", "JinjaLsp.C120_unbound_partial", "JinjaLsp.C120_never", "JinjaLsp.C120_if_refuted", "JinjaLsp.C120_import_refuted", "JinjaLsp.C120_target_refuted", "JinjaLsp.C120_capture_refuted", "JinjaLsp.C120_call_refuted", "JinjaLsp.C120_own_refuted", "JinjaLsp.C120_with_refuted", "JinjaLsp.C120_else_refuted", "JinjaLsp.C120_inline_refuted"], "note": "C120_bound_partial: no false alarm at a name bound by `set`, as first target of a loop, in `with`, as macro or parameter of one, and not only in an `if` that has ended (`LexicallyBound`), in templates without block-form `set` and `call` (`Paired`). C120_unbound_partial: no misses in templates without block-form `set` and `call` in which `else` and inline `if` do not stand in loops, `with`, macros or blocks that bind names, no header evaluates a name it binds and those of `with` and macros evaluate none (`Simple`). C120_never (any template): a name that no `set`, loop, `with` or macro header contains is reported. Outside these classes the claim is false: false alarms in C120_if_refuted, C120_import_refuted, C120_target_refuted, C120_capture_refuted, C120_call_refuted; misses in C120_own_refuted, C120_with_refuted, C120_else_refuted, C120_inline_refuted. Jinja's rules (Spec/Jinja.lean) are stated independently of the server; parameters of `call` blocks are not part of the abstract syntax, a `block` sees the names around it"},
 {"property": "C121", "status": "partial", "theorems": ["JinjaLsp.C121_goto_partial", "JinjaLsp.C121_block_refuted", "JinjaLsp.C121_hover_partial", "JinjaLsp.C121_elsewhere_partial"], "note": "C121_goto_partial, C121_hover_partial, C121_elsewhere_partial: for templates that are `Simple` and, the first two, variables that Jinja resolves to a `Lexical` binding (C120); for goto-definition the variable must not have the name of a block of the template. C121_block_refuted: otherwise goto-definition leads to the block around the variable. Lines and columns below 2^32"},
 {"property": "C122", "status": "partial", "theorems": ["JinjaLsp.C122_typed_partial", "JinjaLsp.C122_behind_partial", "JinjaLsp.C122_if_refuted", "JinjaLsp.C122_import_refuted", "JinjaLsp.C122_target_refuted", "JinjaLsp.C122_else_refuted", "JinjaLsp.C122_inline_refuted"], "note": "C122_typed_partial (in a name) and C122_behind_partial (behind a name, with no other token in between): for templates that are `Simple`, exactly the `Lexical` bindings are offered (C120). Otherwise the claim is false: names that are not offered in C122_if_refuted, C122_import_refuted, C122_target_refuted; names offered although they are not bound in C122_else_refuted, C122_inline_refuted. The names Jinja itself defines (`loop`, `range`, …) are not part of the rules in Spec/Jinja.lean and never offered"},
 {"property": "C123", "status": "partial", "theorems": ["JinjaLsp.C123_diagnostics_partial", "JinjaLsp.C123_requests_partial"], "note": "C123_diagnostics_partial and C123_requests_partial: for the templates for which C120, C121 and C122 hold (`Paired`, `Simple`, `Narrow`, `Lexical` bindings; the refutations there carry over) and executions in which positions fit into 32 bits (`SmallResults`)"},
 {"property": "C124", "status": "proved", "theorems": ["JinjaLsp.C124_reported", "JinjaLsp.C124_goto", "JinjaLsp.C124_hover", "JinjaLsp.C124_offered", "JinjaLsp.C124_typed", "JinjaLsp.C124_offered_only"], "note": "C124_reported, C124_goto, C124_hover, C124_offered, C124_typed, C124_offered_only. Goto and hover: for names without a dot. Goto also: for a passed name that is not at the very beginning of its file (an entry with an empty extent there stands for the file itself, as in C36)."},
 {"property": "C125", "status": "partial", "theorems": ["JinjaLsp.C125_recorded_partial", "JinjaLsp.C125_underlined_partial", "JinjaLsp.C125_requests_partial", "JinjaLsp.C125_goto_partial", "JinjaLsp.C125_open_refuted"], "note": "C125_recorded_partial, C125_underlined_partial, C125_requests_partial (hover, completion), C125_goto_partial: all but the last part, for files that are legible UTF-8 (names: without syntax error). C125_open_refuted: the last part is false, because saving (or pausing in) a backend file re-analyses that file only; open templates keep the list computed before. The assumption on positions is about the parser alone (C65_small)"},
 {"property": "C126", "status": "partial", "theorems": ["JinjaLsp.C126_goto_partial", "JinjaLsp.C126_hover_partial", "JinjaLsp.C126_unbound_partial", "JinjaLsp.C126_complete_partial", "JinjaLsp.C126_typed_refuted"], "note": "C126_goto_partial, C126_hover_partial, C126_unbound_partial, C126_complete_partial: for the bindings and templates of C121/C122 (the claim is false for the others there), host file names that are URLs and part of the document's name (C102), and lines of the template that are ASCII up to the variable (C118). C126_typed_refuted: while a name is being typed completion offers nothing, unless variables are stored under the bare name of the host file"},
 {"property": "C127", "status": "partial", "theorems": ["JinjaLsp.C127_parser", "JinjaLsp.C127_reports", "JinjaLsp.C127_references", "JinjaLsp.C127_symbols", "JinjaLsp.C127_goto", "JinjaLsp.C127_hover", "JinjaLsp.C127_completion_partial"], "note": "C127_parser holds without conditions. The others are for templates without error nodes (an error node reaches over what is beside it, C92) and, for answers, positions that are not the very beginning of the file unless it stays in place (sentinel position, C115/C116); C127_completion_partial is for moves by whole lines"},
 {"property": "C128", "status": "partial", "theorems": ["JinjaLsp.C128_symbols_partial", "JinjaLsp.C128_reports_partial", "JinjaLsp.C128_inline_refuted"], "note": "False for expressions with an inline `if`, which open a scope that is never closed (C128_inline_refuted: changing {{ a }} into {{ a if b }} in a loop silences the report about the loop variable after it). For well-formed templates without such changes it holds; the reports need that the beginning of the file stays in place or no scope ends there (sentinel)"},
 {"property": "C129", "status": "proved", "theorems": ["JinjaLsp.C129_outline", "JinjaLsp.C129_reports", "JinjaLsp.C129_goto", "JinjaLsp.C129_hover", "JinjaLsp.C129_offered"], "note": "For templates without syntax errors (C15 says what happens at errors). The kind of a report (undefined / defined somewhere) may change if the new part binds the name. For goto and hover: no two bindings begin at the same place, and lines and columns fit into 32 bits"},
 {"property": "C130", "status": "partial", "theorems": ["JinjaLsp.C130_outline_partial", "JinjaLsp.C130_reports_partial", "JinjaLsp.C130_goto_partial", "JinjaLsp.C130_hover_partial", "JinjaLsp.C130_offered_partial", "JinjaLsp.C130_else_refuted", "JinjaLsp.C130_rest_partial"], "note": "False for pieces with `else`, `elif` or an inline `if`, each of which opens a scope of its own that is not closed with the block (C130_else_refuted: a condition with `else` in a loop silences the report about the loop variable after the loop). For pieces without them it holds. The other tags stay in place (moving them is C92/C127)"},
 {"property": "C131", "status": "proved", "theorems": ["JinjaLsp.C131_reports", "JinjaLsp.C131_goto", "JinjaLsp.C131_offered"], "note": "For templates without syntax errors; the other tags stay in place (moving them is C92/C127). End tags follow one another in the file, and the use is not at the very end of the file. This covers the pieces with `else` for which C130 fails: there reports get lost, here it is shown that none appear"},
 {"property": "C132", "status": "proved", "theorems": ["JinjaLsp.C132_end", "JinjaLsp.C132_added"], "note": "For texts without syntax errors whose other tags stay in place; under the conditions of C82 (client edits with ranges, no quick fixes, results small enough for the channels). The part about complete pieces, which is false for pieces with `else`, is C130_rest_partial"},
 {"property": "C133", "status": "partial", "theorems": ["JinjaLsp.C133_goto_end_partial", "JinjaLsp.C133_goto_partial", "JinjaLsp.C133_hover_end_partial", "JinjaLsp.C133_hover_partial", "JinjaLsp.C133_offered_end_partial", "JinjaLsp.C133_offered_partial"], "note": "Missing: pieces with `else`, `elif` or an inline `if` (false, C130); file names that are no URLs (goto panics, C102); names a hint in force begins with (C94); completion while a name is typed (offers nothing, C126); lines of the template before the cursor that are not ASCII (C118). For templates without syntax errors whose other tags stay in place"},
 {"property": "C134", "status": "partial", "theorems": ["JinjaLsp.C134_calls", "JinjaLsp.C134_requests", "JinjaLsp.C134_goto_partial", "JinjaLsp.C134_safe_partial", "JinjaLsp.C134_file_refuted", "JinjaLsp.C134_hint_refuted"], "note": "Proved for all calls but goto-definition (`C134_calls`, `C134_requests`). Goto-definition panics in files whose names are no URLs (`C134_file_refuted`) and with hints under the default name `temp` (`C134_hint_refuted`); these are the only reasons (`C134_goto_partial`, `C134_safe_partial`). Missing: debug builds, where positions above the template panic (C59). Assumptions on tree-sitter and the url crate are explicit hypotheses (`Spec.Sound`, `Spec.KeepsUrls`)"},
 {"property": "C135", "status": "partial", "theorems": ["JinjaLsp.C135_outline_partial", "JinjaLsp.C135_reports_partial", "JinjaLsp.C135_goto_partial", "JinjaLsp.C135_hover_partial", "JinjaLsp.C135_offered_partial", "JinjaLsp.C135_else_refuted"], "note": "Missing: parts with `else`, `elif` or an inline `if` (`C135_else_refuted`). For templates without syntax errors whose other tags stay in place"},
 {"property": "C136", "status": "proved", "theorems": ["JinjaLsp.C136_reports", "JinjaLsp.C136_goto", "JinjaLsp.C136_hover", "JinjaLsp.C136_offered", "JinjaLsp.C136_rest"], "note": "For templates without syntax errors; pieces are complete in the sense of the server's brackets, so those with `else` or `elif` are excluded by the statement (C130_else_refuted, C135_else_refuted)"},
 {"property": "C137", "status": "partial", "theorems": ["JinjaLsp.C137_goto_partial", "JinjaLsp.C137_hover_partial", "JinjaLsp.C137_offered_partial"], "note": "Missing: file names that are no URLs (C102_filename_refuted), names that a hint in force begins with, and completion in names (C126)"},
 {"property": "C138", "status": "partial", "theorems": ["JinjaLsp.C138_self", "JinjaLsp.C138_twice", "JinjaLsp.C138_rest", "JinjaLsp.C138_hover_refuted", "JinjaLsp.C138_shadowed_refuted"], "note": "Goto-definition: C138_self, C138_twice, C138_rest, for bindings whose names are read as names and do not overlap others. False for hover: on the first definition it shows nothing (C138_hover_refuted), on a later one the kind of an earlier one (C138_shadowed_refuted)"},
 {"property": "C139", "status": "partial", "theorems": ["JinjaLsp.C139_self_partial", "JinjaLsp.C139_twice_partial", "JinjaLsp.C139_hover_refuted", "JinjaLsp.C139_shadowed_refuted"], "note": "goto_definition: C139_self_partial, C139_twice_partial, for file names that are URLs, and bindings whose names are read as names and do not overlap others. False for hover: on the first definition it shows nothing (C139_hover_refuted), on a later one the kind of an earlier one (C139_shadowed_refuted)"},
 {"property": "C140", "status": "partial", "theorems": ["JinjaLsp.C140_scope", "JinjaLsp.C140_unreported_partial", "JinjaLsp.C140_rest_partial", "JinjaLsp.C140_block_refuted", "JinjaLsp.C140_target_refuted"], "note": "Proved for the scopes of all bindings (C140_scope) and for reports of all bindings but blocks (C140_unreported_partial, C140_rest_partial), where the syntax tree ends with the text. False for blocks, whose names are reported where they are given (C140_block_refuted), and for further targets of loops (C140_target_refuted)"},
 {"property": "C141", "status": "partial", "theorems": ["JinjaLsp.C141_listed_partial", "JinjaLsp.C141_named_partial", "JinjaLsp.C141_rewritten_refuted"], "note": "Proved for files recorded under a URI as the URL parser writes it (C141_listed_partial, C141_named_partial). False for others, such as files found at startup in directories with a space in their name: the answer names a URI that has no outline (C141_rewritten_refuted)"},
 {"property": "C142", "status": "proved", "theorems": ["JinjaLsp.C142_listed", "JinjaLsp.C142_release", "JinjaLsp.C142_named"], "note": "C142_listed: any build in which get_variables answers; C142_release: in release builds it always does; C142_named: names. Places outside of the host document (is_backend) are the subject of C102"},
 {"property": "C143", "status": "proved", "theorems": ["JinjaLsp.C143_outline", "JinjaLsp.C143_rest", "JinjaLsp.C143_home", "JinjaLsp.C143_node", "JinjaLsp.C143_node_home"], "note": "C143_outline, C143_rest: the server; C143_node: the Node API; C143_home, C143_node_home: C138/C139 without the assumption that definitions do not overlap (there Separate), which is proved here"},
 {"property": "C144", "status": "proved", "theorems": ["JinjaLsp.C144_reports", "JinjaLsp.C144_rest"], "note": "C144_reports: what is sent to the diagnostics task; C144_rest: what the editor displays"},
 {"property": "C145", "status": "proved", "theorems": ["JinjaLsp.C145_reports", "JinjaLsp.C145_apart", "JinjaLsp.C145_rest"], "note": "C145_reports and C145_apart: what is sent to the diagnostics task; C145_rest: what the editor displays. That the workspace hides undefined names when the configuration says so is C26."},
 {"property": "C146", "status": "partial", "theorems": ["JinjaLsp.C146_reserved_refuted", "JinjaLsp.C146_read", "JinjaLsp.C146_quiet_partial", "JinjaLsp.C146_goto_partial", "JinjaLsp.C146_twice_partial", "JinjaLsp.C146_rest_partial", "JinjaLsp.C146_attribute_refuted"], "note": "C146_read: every recorded definition is also read as a use, unless it is an attribute or a reserved word; C146_goto_partial, C146_twice_partial, C146_quiet_partial, C146_rest_partial are without the hypotheses about uses and separation of C138 and C140. False for attributes (C146_attribute_refuted: in `{% with a = x.b %}` the `b` is recorded as a definition, and goto-definition on it leads to `x`), and for the diagnostics of block names (C140_block_refuted), and for reserved words (C146_reserved_refuted in Reserved.lean: a definition `{% set module = 1 %}` is listed in the outline, but goto-definition leads there from nowhere)."},
 {"property": "C147", "status": "proved", "theorems": ["JinjaLsp.C147_goto", "JinjaLsp.C147_hover", "JinjaLsp.C147_reports", "JinjaLsp.C147_node"], "note": "C147_reports (all messages, including the start), C147_goto, C147_hover, C147_node. The other side of it is C146_reserved_refuted: `{% set module = 1 %}` is listed in the outline although goto-definition leads there from nowhere."},
 {"property": "C148", "status": "partial", "theorems": ["JinjaLsp.C148_itself_partial", "JinjaLsp.C148_twice_partial", "JinjaLsp.C148_reserved_refuted"], "note": "C148_itself_partial and C148_twice_partial speak about what get_variables returned. Missing: variables listed where the template has an attribute (`b` in `{% with a = x.b %}`, see C146_attribute_refuted), and reserved words, for which it is false (C148_reserved_refuted: `{% set module = 1 %}` is listed, and goto_definition leads there from nowhere)."},
 {"property": "C149", "status": "proved", "theorems": ["JinjaLsp.C149_goto", "JinjaLsp.C149_hover", "JinjaLsp.C149_reports", "JinjaLsp.C149_elsewhere", "JinjaLsp.C149_sessions", "JinjaLsp.C149_published"], "note": "C149_goto and C149_hover compare two states; C149_reports compares what an analysis finds; C149_elsewhere compares the answers before and after another document is opened, changed or saved; C149_sessions and C149_published compare two whole sessions with any messages about other documents."},
 {"property": "C150", "status": "partial", "theorems": ["JinjaLsp.C150_goto", "JinjaLsp.C150_hover_partial", "JinjaLsp.C150_hint_refuted", "JinjaLsp.C150_told", "JinjaLsp.C150_calls", "JinjaLsp.C150_calls_hover_partial"], "note": "Proved for goto_definition (C150_goto for two states, C150_told for telling hints, C150_calls for any calls about other documents). False for hover: the description of a hint for a longer name is shown for the name (C150_hint_refuted). Hover is alike if the hints also agree for names that begin with the name (C150_hover_partial), in particular after calls about other documents that tell no hints under temp (C150_calls_hover_partial)."},
 {"property": "C151", "status": "proved", "theorems": ["JinjaLsp.C151_offered", "JinjaLsp.C151_elsewhere", "JinjaLsp.C151_sessions"], "note": "C151_offered compares two states, C151_elsewhere the states before and after another document is opened, changed or saved, C151_sessions two whole sessions. Names of templates are offered from the set of documents and are out of the claim (C41, C42)."}
]}
