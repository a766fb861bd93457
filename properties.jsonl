{"id": "C01", "title": "Line ending normalisation replaces exactly the CRLF pairs", "statement": "Normalising the line endings of a text returns the text in which every carriage-return+line-feed pair has been replaced by a single line feed and nothing else has changed; the in-place algorithm never indexes out of bounds, always terminates, and the borrowing variant returns the same text.", "quantifier": "every byte string, whatever its length and whatever mixture of CR and LF it contains", "why_tests_cant": "The in-place gap-buffer algorithm has a data-dependent loop; samples cannot cover every arrangement of CR/LF runs or lengths.", "anchors": ["crates/line_ending/src/lib.rs: normalize, normalize_ref, infer"]}
{"id": "C02", "title": "Automatic line ending detection and round trip", "statement": "Under the automatic setting a text is treated as CRLF exactly when it contains at least one CRLF pair, and for a text in which every LF is preceded by CR, normalising and then writing LF back as CRLF reproduces the text byte for byte; a text without CRLF is returned unchanged.", "quantifier": "every text", "why_tests_cant": "A statement about all texts, including mixed endings and lone CRs; no finite sample establishes the biconditional or the round trip.", "anchors": ["crates/line_ending/src/lib.rs: infer, normalize", "crates/workspace/src/settings/line_ending.rs: LineEnding::finalize", "crates/aether_lsp_utils/src/proto/to_proto.rs: text_edit"]}
{"id": "C03", "title": "Applying a text edit equals the simultaneous replacement of its ranges", "statement": "Applying an edit made of sorted, disjoint, in-bounds replacements yields the text obtained by walking the original text once, copying the uncovered stretches and substituting each replacement for its range; it never panics, and its length is the original length plus inserted minus deleted bytes.", "quantifier": "every text and every valid list of replacements, of any number", "why_tests_cant": "The implementation applies replacements in reverse on a mutated buffer; equality with the one-pass meaning for all lists needs induction.", "anchors": ["crates/aether_lsp_utils/src/text_edit.rs: TextEdit::apply, Indel::apply"]}
{"id": "C04", "title": "Edit builder yields valid edits", "statement": "Whenever a sequence of insert/delete/replace calls on the builder finishes without a panic, the resulting edit is sorted and pairwise disjoint (or equal), touching neighbours are merged, and merging does not change the effect of applying the edit; if the ranges given overlap, finishing panics rather than silently yielding an invalid edit.", "quantifier": "every sequence of builder calls", "why_tests_cant": "Calls can come in any order, number and overlap pattern; the builder re-sorts as a side effect of debug-style assertions only for small lists.", "anchors": ["crates/aether_lsp_utils/src/text_edit.rs: TextEditBuilder::indel, TextEditBuilder::finish, check_disjoint, coalesce_indels"]}
{"id": "C05", "title": "Diff produces an edit that transforms the old text into the new one", "statement": "For any two texts, applying the computed diff to the first yields the second, and the diff's ranges are valid for the first text.", "quantifier": "every pair of texts and every chunking of them that the diff library may return", "why_tests_cant": "The chunk sequence returned by the diff library is arbitrary (subject to its contract); only a proof covers every interleaving of equal/delete/insert chunks.", "anchors": ["crates/aether_lsp_utils/src/diff.rs: diff"]}
{"id": "C06", "title": "Merging two edits", "statement": "Merging two edits succeeds only when their ranges do not conflict; the merged edit is valid, contains exactly the replacements of both (identical deletions once), and applying it has the effect of both; on failure the receiver is unchanged and the other edit is handed back.", "quantifier": "every pair of valid edits", "why_tests_cant": "The number and relative positions of replacements in both edits are unbounded.", "anchors": ["crates/aether_lsp_utils/src/text_edit.rs: TextEdit::union"]}
{"id": "C07", "title": "Offset mapping through an edit follows the text", "statement": "Mapping an offset through an edit reports 'deleted' exactly when the offset lies strictly inside a replaced range, and otherwise returns the offset at which the same following text is found after the edit is applied.", "quantifier": "every text, valid edit and offset", "why_tests_cant": "Relates two different traversals (offset arithmetic and text rewriting) for all edits and offsets.", "anchors": ["crates/aether_lsp_utils/src/text_edit.rs: TextEdit::apply_to_offset"]}
{"id": "C08", "title": "Positions and offsets are inverse to each other", "statement": "Converting an offset at a character boundary to an editor position in the negotiated encoding (UTF-8, UTF-16 or UTF-32) and back gives the offset again; distinct offsets give distinct positions, and the order of offsets agrees with the (line, column) order of positions.", "quantifier": "every text (any Unicode scalar values), every character boundary, each encoding", "why_tests_cant": "Depends on the combination of multi-byte and surrogate-pair characters before the position on its line, an unbounded space.", "anchors": ["crates/aether_lsp_utils/src/proto/from_proto.rs: line_col_from_position, offset_from_position, text_range", "crates/aether_lsp_utils/src/proto/to_proto.rs: position_from_line_col, position_from_offset, range"]}
{"id": "C09", "title": "Document synchronisation tracks the editor buffer", "statement": "After any batch of didChange events (incremental and full), the server's text equals the text obtained by applying each change, one after another, to the text resulting from the previous one, each interpreted with positions of that intermediate text; reuse of the line index between changes in a batch never changes the result.", "quantifier": "every document, every batch of changes with valid positions, each encoding", "why_tests_cant": "The cached line index is reused or rebuilt depending on the order of changed lines; the correctness of the skip condition is about all histories of changes.", "anchors": ["crates/aether_lsp_utils/src/proto/from_proto.rs: apply_text_changes", "crates/lsp/src/documents.rs: Document::on_did_change"]}
{"id": "C10", "title": "A batch of text edits is applied as one simultaneous edit", "statement": "Applying a list of LSP text edits whose ranges do not overlap gives the text in which all edits are applied simultaneously to the original document, and several inserts at the same position appear in the order of the list, as the LSP specification and the function's documentation demand.", "quantifier": "every document and every list of non-overlapping edits", "why_tests_cant": "The order-sensitive behaviour only shows up with particular combinations of equal start positions; all lists have to be considered.", "anchors": ["crates/aether_lsp_utils/src/proto/from_proto.rs: apply_text_edits"]}
{"id": "C11", "title": "Formatting edits sent to the client produce the formatted text in the client's buffer", "statement": "When the server answers a formatting request with edits, a client that applies them simultaneously to its own buffer (same content up to the buffer's line ending convention) obtains the formatted document with the buffer's line ending convention.", "quantifier": "every pair of buffer content and formatted content, every diff chunking, each encoding and line ending convention", "why_tests_cant": "Composition of diff, coalescing, position conversion and CRLF conversion over all texts; each stage is separately sampled by tests, the composition for all inputs is not.", "anchors": ["crates/aether_lsp_utils/src/proto/to_proto.rs: text_edit, text_edit_vec, replace_all_edit", "crates/lsp/src/handlers_format.rs: document_formatting", "crates/aether_lsp_utils/src/diff.rs: diff"]}
{"id": "C12", "title": "Server-side text is always LF-normalised", "statement": "At every point of a document's life (open, any sequence of changes) the text held by the server contains no CRLF pair.", "quantifier": "every initial text and every history of change batches", "why_tests_cant": "An invariant over unbounded histories of edits; a violation needs a specific edit (LF inserted after a lone CR).", "anchors": ["crates/lsp/src/documents.rs: Document::new, Document::on_did_change", "crates/aether_lsp_utils/src/proto/from_proto.rs: apply_text_changes"]}
{"id": "C13", "title": "Function name lists behave as sets", "statement": "For the `skip` and `table` settings a function name is recognised exactly when it is one of the listed names, whatever the order and multiplicity in which the names are written, and merging user and default tables recognises exactly the union.", "quantifier": "every list of names and every queried name", "why_tests_cant": "Membership is answered by binary search on a sorted array; correctness for all lists needs an argument about ordering.", "anchors": ["crates/settings/src/sorted_strings.rs: SortedStrings::new, contains", "crates/settings/src/table.rs: Table::merge", "crates/settings/src/skip.rs: Skip::contains"]}
{"id": "C14", "title": "Configuration to settings is total on valid values and uses documented defaults", "statement": "Each option of air.toml determines exactly the documented setting: omitted options take their documented defaults, widths are accepted exactly when in 1..=320 (line) and 1..=24 (indent), `persistent-line-breaks` maps to respect/ignore, `default-exclude` and `default-table` switch the built-in lists, and no option influences another setting.", "quantifier": "every combination of present/absent options and values", "why_tests_cant": "The cross product of options and values is unbounded (names, patterns, numbers).", "anchors": ["crates/workspace/src/toml_options.rs: TomlOptions::into_settings", "crates/settings/src/line_width.rs: LineWidth::try_from", "crates/settings/src/indent_width.rs: IndentWidth::try_from", "crates/workspace/src/settings.rs: FormatSettings::default, to_format_options"]}
{"id": "C15", "title": "Settings are resolved to the closest enclosing directory", "statement": "After any sequence of additions, removals and clears, looking up a path returns the value most recently added (and not removed) for the longest directory that is a component-wise prefix of the path, or the fallback if there is none; adding returns the replaced value, removing returns the removed one, and other directories are unaffected.", "quantifier": "every history of add/remove/clear operations and every queried path", "why_tests_cant": "Correctness rests on the sortedness of the internal vector over arbitrary histories.", "anchors": ["crates/workspace/src/resolve.rs: PathResolver::add, remove, clear, resolve, resolve_or_fallback, matches, matches_mut"]}
{"id": "C16", "title": "Every path formatted uses its nearest air.toml", "statement": "After settings discovery for a list of paths, each of these paths resolves to the settings of the nearest ancestor directory having an air.toml (air.toml winning over .air.toml), or to the defaults if none has one; the pruning of already visited ancestors never changes this, each toml is reported at most once, and the order of the paths is irrelevant to resolution.", "quantifier": "every file system layout and every list of paths", "why_tests_cant": "The shared visited-set shortcut is only correct because of an invariant over the whole list of paths.", "anchors": ["crates/workspace/src/discovery.rs: discover_settings", "crates/workspace/src/toml.rs: find_air_toml_in_directory, find_air_toml", "crates/workspace/src/resolve.rs: PathResolver::resolve"]}
{"id": "C17", "title": "File discovery selects exactly the included, non-excluded files", "statement": "Walking the given roots reports exactly the files that are reachable without passing through an excluded directory, are not excluded themselves, and match the include rule (or any file when forced); a file named directly on the command line is additionally rejected when any of its parent directories is excluded; every reported file comes with no loss or duplication by the parallel walker, for any distribution of entries over worker threads.", "quantifier": "every directory tree, exclude/include predicate, list of roots and every schedule of worker threads", "why_tests_cant": "Parallel walking has unboundedly many schedules; tree shapes are unbounded.", "anchors": ["crates/workspace/src/discovery.rs: discover_r_file_paths, FilesVisitor::visit, visit_format, Drop for FilesVisitor, any_exclude_matched_path, any_exclude_matched_path_or_any_parents, any_include_matched_path"]}
{"id": "C18", "title": "Formatting stdin for a path makes the same decision as formatting the path", "statement": "Content piped in for a file path is formatted exactly when the same file, named directly on the command line with the same options, would be formatted; otherwise the content is passed through unchanged, and in check mode reported as unchanged.", "quantifier": "every path, settings and combination of --force and --check", "why_tests_cant": "Two separately coded decision procedures must agree on all pattern outcomes.", "anchors": ["crates/air/src/commands/format/stdin.rs: is_stdin_formattable, format_stdin_write, format_stdin_check", "crates/workspace/src/discovery.rs: visit_format"]}
{"id": "C19", "title": "Exit status contract of `air format`", "statement": "The process status is 0 exactly when every file could be processed and (in check mode) needs no change, 1 exactly when in check mode all files could be processed and some file needs change, and 255 when any error happened.", "quantifier": "every list of file outcomes and both modes", "why_tests_cant": "Number and arrangement of outcomes is unbounded; precedence between failures and changes must hold for every mixture.", "anchors": ["crates/air/src/commands/format/paths.rs: format, format_paths_write, format_paths_check", "crates/air/src/commands/format/stdin.rs: format", "crates/air/src/status.rs: ExitStatus", "crates/air/src/main.rs: main"]}
{"id": "C20", "title": "Check mode is read-only and predicts write mode", "statement": "Check mode never modifies any file. The files it reports are exactly the files write mode would rewrite, write mode leaves every other file untouched, files with syntax or read errors are never modified, and errors on one file do not prevent the others from being formatted.", "quantifier": "every file system state, every list of files and every formatter function", "why_tests_cant": "Holds for an arbitrary formatter result on every file; tests only sample a few files.", "anchors": ["crates/air/src/commands/format/paths.rs: format_path, write_path, check_path", "crates/workspace/src/format.rs: format_source"]}
{"id": "C21", "title": "Write mode converges when the formatter is idempotent", "statement": "If formatting is idempotent on the formatted outputs, then a second `air format` right after a successful first changes nothing, and a check run right after reports success.", "quantifier": "every file system state and list of files (possibly listing a file twice)", "why_tests_cant": "A two-run history property over all file systems.", "anchors": ["crates/air/src/commands/format/paths.rs: format_paths_write, format_paths_check"]}
{"id": "C22", "title": "Editor and command line agree on excluded files", "statement": "A file opened in the editor is refused formatting whenever the command line, given the same settings and that file directly, would refuse it because of an exclude rule; the only additional files the editor formats are those the client declares as R language documents.", "quantifier": "every path, settings and language id", "why_tests_cant": "Two implementations of the rule set must agree for all pattern outcomes.", "anchors": ["crates/lsp/src/file_patterns.rs: is_document_excluded_from_formatting, is_document_excluded", "crates/workspace/src/discovery.rs: any_exclude_matched_path_or_any_parents"]}
{"id": "C23", "title": "The main loop answers each request exactly once and in state order", "statement": "For every sequence of client messages each request up to shutdown receives exactly one response, messages take effect in arrival order, a failing handler neither loses later messages nor corrupts the state, and nothing is processed after shutdown.", "quantifier": "every sequence of notifications and requests with arbitrary handler failures", "why_tests_cant": "Unbounded message histories.", "anchors": ["crates/lsp/src/main_loop.rs: GlobalState::main_loop, handle_event, respond"]}
{"id": "C24", "title": "Document store reflects the open documents", "statement": "After any history of open/change/close notifications a document is available exactly if it was opened and not closed since, its text is that of the latest open followed by the later changes, the version never decreases, changes to one document never affect another, and requests on unknown documents are answered with an error without changing state.", "quantifier": "every history of notifications over any number of documents", "why_tests_cant": "History property.", "anchors": ["crates/lsp/src/handlers_state.rs: did_open, did_change, did_close", "crates/lsp/src/state.rs: get_document_or_error, get_document_mut_or_error", "crates/lsp/src/documents.rs: Document"]}
{"id": "C25", "title": "Client configuration answers are attributed to the right document", "statement": "When the server asks for configuration for all open documents, each document receives precisely the values the client returned for it, the global and diagnostic values likewise, and an answer of the wrong length changes nothing.", "quantifier": "every number of open documents and every response list", "why_tests_cant": "Positional flattening/unflattening over an unbounded number of documents.", "anchors": ["crates/lsp/src/handlers_state.rs: update_config, update_documents_config, update_diagnostics_config, update_global_config"]}
{"id": "C26", "title": "Workspace settings reflect open workspaces and air.toml changes", "statement": "After any history of opening/closing workspace folders and air.toml change events, a document's settings are those of the nearest air.toml in its innermost open workspace as of the last successful discovery, else defaults; a failed discovery keeps the earlier settings of a workspace being opened; documents outside all workspaces get the defaults.", "quantifier": "every history of workspace events, file systems and document paths", "why_tests_cant": "History property involving nested resolvers.", "anchors": ["crates/lsp/src/workspaces.rs: WorkspaceSettingsResolver::open_workspace_folder, close_workspace_folder, settings_for_url, reload_workspaces_matched_by_url"]}
{"id": "C27", "title": "Editor formatting options are used exactly when no air.toml applies", "statement": "When an air.toml applies to a document its values are used and editor-provided indentation/width options are ignored; otherwise each editor-provided option overrides the default and absent ones leave the default.", "quantifier": "every settings/option combination", "why_tests_cant": "Cross product of options.", "anchors": ["crates/lsp/src/workspaces.rs: WorkspaceSettings::to_format_options", "crates/lsp/src/settings.rs", "crates/lsp/src/handlers_state.rs: did_change_formatting_options"]}
{"id": "C28", "title": "Formatting never returns edits for unparsable or excluded documents, and edits exactly when something changes", "statement": "A document formatting request on an excluded or unparsable document returns no edits, on an already formatted document returns none, and otherwise returns edits that turn the document into the formatted text (for notebook cells, without the final newline).", "quantifier": "every document state, settings and formatter result", "why_tests_cant": "Decision logic over all documents composed with the diff theorem.", "anchors": ["crates/lsp/src/handlers_format.rs: document_formatting", "crates/workspace/src/format.rs: format_source_with_parse"]}
{"id": "C29", "title": "Range formatting touches complete logical lines around the selection only", "statement": "The expressions chosen by range formatting are consecutive siblings of one expression list, each of them overlaps or lies between the ends of the selection, and no deeper list encloses the selection.", "quantifier": "every syntax tree and selection", "why_tests_cant": "Tree shapes and selections are unbounded.", "anchors": ["crates/lsp/src/handlers_format.rs: find_deepest_enclosing_logical_lines, find_expression_lists, text_non_whitespace_range"]}
{"id": "C30", "title": "Comment directives are recognised exactly as documented", "statement": "A comment is a directive iff after its leading hashes and blanks it reads `fmt:` followed, up to surrounding blanks, by `skip`, `skip file` or `table`; everything else is an ordinary comment; `Generated by` headers are recognised by prefix.", "quantifier": "every comment text", "why_tests_cant": "All strings.", "anchors": ["crates/comments/src/directive.rs: parse_comment_directive, trim_comment, parse_format_directive, parse_special_skip_file"]}
{"id": "C31", "title": "Skip and table requests are honoured exactly where documented", "statement": "A node is left as written iff a skip directive leads it in a position where directives are allowed, or it is a call to a function listed in `skip`; a whole file is left as written (up to line endings) iff a skip-file directive or a Generated-by first line leads its first expression; a call is laid out as a table iff a table directive or the table list asks for it.", "quantifier": "every tree, comment placement and settings", "why_tests_cant": "All trees and settings; includes the namespaced callee case.", "anchors": ["crates/air_r_formatter/src/comments_ext.rs", "crates/air_r_formatter/src/r/auxiliary/root.rs", "crates/air_r_formatter/src/r/auxiliary/call.rs"]}
{"id": "C32", "title": "The parser bridge is lossless", "statement": "Tokens and trivia produced for a source text tile the text: concatenated in order they give back the source byte for byte, for any syntax tree the underlying parser may return whose gaps consist of whitespace, newlines, semicolons and comments.", "quantifier": "every source text and syntax tree over it", "why_tests_cant": "All trees and gaps.", "anchors": ["crates/air_r_parser/src/parse.rs: RWalk, handle_token, handle_comment_leave, handle_root_leave, RParse::derive_trivia"]}
{"id": "C33", "title": "Trivia classification is well formed", "statement": "Between two tokens all trailing trivia precede all leading trivia, newlines are never trailing, every comment appears exactly once and is attached to the preceding token exactly if no newline separates them.", "quantifier": "every source text and syntax tree", "why_tests_cant": "All trees and gaps.", "anchors": ["crates/air_r_parser/src/parse.rs: RParse::derive_trivia, handle_comment_leave"]}
{"id": "C34", "title": "Argument lists have a hole for every missing argument", "statement": "For each call/subset the produced argument list alternates arguments and commas, starting and ending with an argument: with n commas there are exactly n+1 arguments (0 if the list is completely empty), explicit arguments keep their order and position, and the formatter's separated-list view is always well formed.", "quantifier": "every sequence of arguments, commas and comments between the delimiters", "why_tests_cant": "All sequences.", "anchors": ["crates/air_r_parser/src/parse.rs: handle_arguments_enter, handle_hole_before_comma, handle_hole_before_close"]}
{"id": "C35", "title": "The event stream is balanced", "statement": "The events sent to the tree builder form a single well nested tree whose token sequence is that of the source, so building the tree never fails; a syntax error yields a one-token tree covering all text plus an error.", "quantifier": "every syntax tree", "why_tests_cant": "All trees.", "anchors": ["crates/air_r_parser/src/parse.rs: RWalk::walk, handle_enter, handle_leave, parse_failure", "crates/air_r_parser/src/treesitter.rs: Preorder"]}
{"id": "C36", "title": "Formatting preserves the program's tokens", "statement": "For every program and every layout choice of the printer, the formatted text has the tokens of the input in the same order, except for braces added around bodies and assignment operators rewritten according to the configured style.", "quantifier": "every syntax tree, options and layout decision of the printer", "why_tests_cant": "Quantifies over all programs and all line-fitting decisions.", "anchors": ["crates/air_r_formatter/src/r/auxiliary/*.rs: fmt_fields", "crates/air_r_formatter/src/lib.rs: FormatNodeRule::fmt"]}
{"id": "C37", "title": "Formatting preserves every comment exactly once", "statement": "Every comment of the input appears in the formatted text exactly once, and is followed by a line break before any further token.", "quantifier": "every syntax tree with comments anywhere, options and layout decision", "why_tests_cant": "Comment placement has ten cooperating special-case handlers; all combinations matter.", "anchors": ["crates/air_r_formatter/src/comments.rs: place_comment", "crates/air_r_formatter/src/lib.rs: FormatNodeRule::fmt"]}
{"id": "C38", "title": "Line breaks inserted by the formatter never change how the program parses", "statement": "Each line break emitted outside of parentheses/brackets occurs where R continues the expression on the next line (after an operator, inside an open delimiter, before an expression required by a keyword), or between complete expressions; `else` is never separated from its if statement at top level.", "quantifier": "every syntax tree, options and layout decision", "why_tests_cant": "Depends on nesting context and printer decisions.", "anchors": ["crates/air_r_formatter/src/r/auxiliary/*.rs"]}
{"id": "C39", "title": "Rewriting assignment operators keeps the meaning", "statement": "Replacing `=` by `<-` or vice versa according to the style yields a program with the same parse tree up to the operator, `=` introduced only where R allows it as assignment; applying the rewriting twice is the same as once; `preserve` changes nothing.", "quantifier": "every expression tree and style", "why_tests_cant": "Precedence interaction over nested assignments of any depth.", "anchors": ["crates/air_r_formatter/src/r/auxiliary/binary_expression.rs: fmt_left_assignment_operator, can_normalize_to_equal"]}
{"id": "C40", "title": "Table layout aligns every column and keeps rows", "statement": "In table layout each column's cells have equal printed width (so separators align), numbers align at the decimal point, no row break is added or removed and all arguments are printed in order.", "quantifier": "every call with any number of rows, columns and jagged rows", "why_tests_cant": "All tables.", "anchors": ["crates/air_r_formatter/src/call_arguments_table.rs: build_table_impl, padding, simple_padding, decimal_padding, ArgKind"]}
{"id": "C41", "title": "Autobracing follows the documented criteria", "statement": "An if statement is braced whenever one of the documented criteria holds (effect position, multi-line, existing braces, nested if), braces are added consistently to all branches, existing braces are never removed or doubled, and loops are always braced.", "quantifier": "every if/loop/function tree and context", "why_tests_cant": "All tree shapes.", "anchors": ["crates/air_r_formatter/src/r/auxiliary/if_statement.rs: compute_braced_expressions, FormatIfBody", "crates/air_r_formatter/src/loop_body.rs", "crates/air_r_formatter/src/r/auxiliary/function_definition.rs"]}
{"id": "C42", "title": "Blank lines between expressions are kept up to the limit", "statement": "Between consecutive expressions the output has no blank line if the input had none, and otherwise one (or up to two at top level), never more.", "quantifier": "every list of expressions and blank line counts", "why_tests_cant": "All lists.", "anchors": ["crates/air_r_formatter/src/joiner_ext.rs"]}
{"id": "C43", "title": "Sending a settings notification", "statement": "Settings are pushed to the client only for documents governed by an air.toml and only if the client supports it, and each pushed entry carries the values of that file.", "quantifier": "every list of documents and settings", "why_tests_cant": "All histories.", "anchors": ["crates/lsp/src/notifications/sync_file_settings.rs", "crates/lsp/src/handlers_state.rs: did_change_watched_files"]}
{"id": "C44", "title": "Mixed line endings are converted to the first detected one", "statement": "Under the automatic setting a file with mixed line endings gets the line ending found first in it, and LF if it has none (as documented for the setting).", "quantifier": "every text", "why_tests_cant": "A statement about all texts with arbitrarily mixed endings.", "anchors": ["crates/workspace/src/settings/line_ending.rs: LineEnding::Auto, LineEnding::finalize", "crates/line_ending/src/lib.rs: infer"]}
{"id": "C45", "title": "Positions past the end of a line", "statement": "A position whose column exceeds the length of its line designates the end of that line (as the protocol prescribes), and a position on a line that does not exist is an error.", "quantifier": "every text, position and encoding", "why_tests_cant": "All positions including those outside of the text.", "anchors": ["crates/aether_lsp_utils/src/proto/from_proto.rs: offset_from_position"]}
{"id": "C46", "title": "Which files the default rules select", "statement": "Without any exclude option, a file is formatted when found below a given directory exactly if its extension is R or r and neither it nor any directory between it and the root matches one of the documented default exclusions.", "quantifier": "every path", "why_tests_cant": "All paths; the glob patterns could match more or less than the documentation says.", "anchors": ["crates/workspace/src/settings/default_exclude_patterns.rs", "crates/workspace/src/settings/default_include_patterns.rs", "crates/workspace/src/file_patterns.rs: DefaultFilePatterns"]}
{"id": "C47", "title": "Settings of a file do not depend on the other paths given", "statement": "The settings used to format a file found below a given path are determined by that path and the file system, and do not change when further paths are given on the same command line.", "quantifier": "every file system layout and list of paths", "why_tests_cant": "Interaction between arbitrary sets of paths and configuration files.", "anchors": ["crates/workspace/src/discovery.rs: discover_settings", "crates/workspace/src/resolve.rs: PathResolver::resolve_or_fallback", "crates/air/src/commands/format/paths.rs: format"]}
{"id": "C48", "title": "An interrupted run loses no file contents", "statement": "If a write-mode run of the formatter is interrupted at any point (crash, kill, full disk), every file contains either its original text or its complete formatted text.", "quantifier": "every file system state, list of files and crash point", "why_tests_cant": "Crash points between any two primitive file operations.", "anchors": ["crates/air/src/commands/format/paths.rs: write_path"]}
{"id": "C49", "title": "Naming a file and finding it below a directory select the same files", "statement": "A file found below a directory given on the command line is formatted exactly if it would be formatted when named itself.", "quantifier": "every directory tree, settings and path", "why_tests_cant": "Two different matching procedures (with and without parents) must agree on all trees and patterns.", "anchors": ["crates/workspace/src/discovery.rs: visit_format, any_exclude_matched_path, any_exclude_matched_path_or_any_parents", "crates/workspace/src/file_patterns.rs"]}
{"id": "C50", "title": "Line index and syntax tree always belong to the current text", "statement": "At every moment of every session the line index and the syntax tree the server holds for a document are those of its current text, so that no request is answered from stale positions or a stale tree.", "quantifier": "every history of events over any number of documents", "why_tests_cant": "Staleness appears only after particular sequences of changes; tests follow few of them.", "anchors": ["crates/lsp/src/documents.rs: Document::new, on_did_change"]}
{"id": "C51", "title": "The server survives what a client may send", "statement": "A client that follows the protocol (initialise once, change only open documents with increasing versions and valid ranges) never makes the server panic, so that all its requests are answered.", "quantifier": "every protocol-conforming history of events, file systems and client answers", "why_tests_cant": "Panics hide in unusual combinations of URLs, settings and histories.", "anchors": ["crates/lsp/src/main_loop.rs", "crates/lsp/src/handlers_state.rs", "crates/lsp/src/handlers_format.rs", "crates/workspace/src/file_patterns.rs"]}
{"id": "C52", "title": "The walk over the concrete tree visits every node once, in order", "statement": "However it is used, the iterator over a tree-sitter tree enters every node before and leaves it after its children, never goes beyond the node it was created with, and stops for good afterwards. Skipping the subtree right after a node was entered continues with leaving this node. What is peeked is what comes next, and the peeked field name belongs to the upcoming node.", "quantifier": "every tree and every sequence of next and skip_subtree calls", "why_tests_cant": "The cursor's position, the remembered next event and skipping interact; a mistake shows only for particular shapes (leaves, last children, the root) and call sequences.", "anchors": ["crates/air_r_parser/src/treesitter.rs"]}
{"id": "C53", "title": "Persistent line breaks are never removed", "statement": "If the setting persistent-line-breaks is on, a line break before the first argument of a call or subset, before the first parameter of a function, before the first right-hand side of a chain of pipes or other chainable operators, or before the right side of <-, <<-, = and ~ is in the formatted file again, whatever fits on the line; then all arguments, parameters or operands are on lines of their own at one deeper indentation, and blank lines between them are reduced to one.", "quantifier": "every file without skip and table directives, every such call, function, chain and assignment in it, every layout the printer may choose", "why_tests_cant": "The rule has to win against hugging, grouping of the last argument, best-fitting variants, removal of soft lines and nesting of all of these; tests check a few combinations.", "anchors": ["crates/air_r_formatter/src/r/auxiliary/call_arguments.rs:560", "crates/air_r_formatter/src/r/auxiliary/call_arguments.rs:618", "crates/air_r_formatter/src/r/auxiliary/parameters.rs:11", "crates/air_r_formatter/src/r/auxiliary/binary_expression.rs:453", "crates/air_r_formatter/src/r/auxiliary/binary_expression.rs:872", "docs/formatter.qmd:108"]}
{"id": "C54", "title": "Formatted tokens are lexed as the tokens that were printed", "statement": "When R lexes the formatted text, it finds exactly the tokens the formatter printed, in order and with the same line breaks between them: no two tokens grow together (a < -1 never becomes a<-1, in x never inx, ]] is split or joined only as the brackets demand), strings and comments neither swallow tokens nor end early, and this holds for every indent style and width. With C39, R reads the bytes of the formatted file as the program of the source.", "quantifier": "every file whose tokens and trivia are what R's lexer finds in its text, every setting, every layout the printer may choose, every choice of blanks for indentation", "why_tests_cant": "Whether two tokens may touch depends on their last and first bytes, on open brackets and on the rule that prints them; the pairs that can meet under all combinations of rules and layouts are too many to list.", "anchors": ["crates/air_r_formatter/src/r/auxiliary/binary_expression.rs:1", "crates/air_r_formatter/src/r/auxiliary/unary_expression.rs:1", "crates/air_r_formatter/src/r/auxiliary/call_arguments.rs:1", "crates/air_r_formatter/src/r/auxiliary/string_value.rs:1"]}
{"id": "C55", "title": "White space of a formatted file is neat", "statement": "A formatted file is empty or ends with exactly one line feed; it does not start with white space; no line ends with white space and blank lines are empty; there are at most two blank lines in a row, and at most one before an indented line; two pieces of text on a line are separated by at most one space; lines are indented by indentation only.", "quantifier": "For all files without skipped code and tables, all comments, all settings and all layouts the printer may choose.", "why_tests_cant": "Tests compare sample outputs; stray blanks and piled up line breaks depend on how separators, postponed comments, empty lines and indentation meet, for which there are unboundedly many combinations.", "anchors": ["crates/air_r_formatter/src/r/auxiliary/root.rs:25-46", "crates/air_r_formatter/src/joiner_ext.rs", "crates/air_r_formatter/src/lib.rs:239-250", "crates/air_r_formatter/src/r/lists/expression_list.rs"]}
{"id": "C56", "title": "Formatting a formatted file changes nothing", "statement": "Let x be an R file without comments and without calls of functions that the settings list as skipped or as tables, with persistent line breaks (the default). Format it, and let y be what R reads in the formatted text. Then formatting y can give the same text again: the layout printed for x is among the layouts of y, and every layout of y was already one of x. Hence every printer whose choice does not depend on the layouts it does not choose prints y exactly as it printed x.", "quantifier": "all R files without comments, all layouts, all options with persistent line breaks, all files read back from the printed text, all consistent printers", "why_tests_cant": "The repository checks idempotence for its snapshot files only; whether a second run moves a line break depends on the interplay of persistent line breaks, braces that are added, holes, grouped arguments, pipelines and blank lines at every nesting depth.", "anchors": ["crates/air_r_formatter/src/r/auxiliary/call_arguments.rs", "crates/air_r_formatter/src/r/auxiliary/binary_expression.rs", "crates/air_r_formatter/src/r/auxiliary/braced_expressions.rs", "crates/air_r_formatter/src/r/auxiliary/parameters.rs", "crates/air_r_formatter/src/loop_body.rs", "crates/air_r_formatter/src/joiner_ext.rs", "crates/air_r_formatter/src/r/auxiliary/root.rs"]}
{"id": "C57", "title": "What R accepts is parsed and formatted to the same program", "statement": "If R reads a text as a program, and tree-sitter builds the tree of this program, then the parser reports no syntax error, and the syntax tree it builds has exactly the bytes of the text and, comments and white space aside, exactly the expressions that R reads. Formatting this tree gives a text that R reads as the same program, up to the exchange of `=` and `<-` and braces around bodies. If the text has no comments, parsing and formatting this text once more gives the same text.", "quantifier": "All texts with lines that end in LF, in CR LF or in both, all trees of tree-sitter that are the tree of the program, all settings and all layouts of the printer", "why_tests_cant": "Chains the event-based conversion of tree-sitter trees, the attachment of trivia, comments, formatting rules, printing and R's own reading of the text; tests only compare outputs with snapshots.", "anchors": ["crates/air_r_parser/src/parse.rs", "crates/air_r_parser/src/treesitter.rs", "crates/air_r_formatter/src/lib.rs"]}
{"id": "C58", "title": "Every node gets the parts it has, and the formatter finds them", "statement": "When the parser finishes a node, its children are distributed over the numbered slots of its kind. No token is lost or moved by this, whatever the children are. A node becomes bogus exactly if its children cannot be distributed in order over its slots; an argument list keeps its arguments and commas in alternating slots. The factory never panics on what the parser builds, for any tree of tree-sitter. If R accepts the text and tree-sitter builds the tree of the program, no node is bogus, every field that the formatter asks for is present, and what the formatter sees is the whole text and exactly the program that R reads.", "quantifier": "All kinds of nodes, all lists of children, all trees of tree-sitter, all texts that R accepts (with Unix and with Windows line ends)", "why_tests_cant": "Slots are filled greedily by generated code with a test for each kind; a node that becomes bogus, or a required field that is missing, is only seen when a particular combination of children occurs, and then formatting fails for the whole file.", "anchors": ["crates/air_r_factory/src/generated/syntax_factory.rs", "crates/air_r_syntax/src/generated/nodes.rs", "crates/air_r_syntax/src/lib.rs", "crates/air_r_parser/src/parse.rs"]}
{"id": "C59", "title": "The whole command preserves programs and settles", "statement": "Put together from its parts (discovery of files and settings, options, parser, nodes, comments, rules, line ends): `air format` on files that R accepts does not panic, and R reads each file after a successful run as the same program as before, up to `=`/`<-` and braces around bodies as the settings of that file say. The text that is written is valid UTF-8 with the line ends of the settings. After such a run a second run, whatever its schedule, changes nothing and `air format --check` reports nothing, also if line ends are inferred from the text of each file.", "quantifier": "every directory tree, configuration, command line, file contents, platform, printer that chooses among the layouts, and tree-sitter that agrees with R on the files", "why_tests_cant": "Needs the parser, the comment placement, the rules, the settings and the command together, for all files; snapshot tests format single small files with fixed options.", "anchors": ["crates/air/src/commands/format.rs: format", "crates/air/src/commands/format/paths.rs: format, format_paths_write", "crates/workspace/src/format.rs: format_source", "crates/workspace/src/settings.rs: FormatSettings::to_format_options", "crates/air_r_formatter/src/lib.rs: format_node"]}
{"id": "C60", "title": "Formatting a selection keeps the program", "statement": "When an editor asks to format a selection of a file that R accepts, the server either changes nothing or replaces one range of the text, which holds whole statements of the file or of one block. In the edited text R reads the same program, in which only these statements are changed, and these only as the formatter changes programs (`=`/`<-`, braces around bodies). The statements around them, also on the same line or in the surrounding block, are read as before.", "quantifier": "every text with Unix line ends that R accepts, every tree-sitter that agrees with R on it, every selection, options, indentation, and printer that chooses among the layouts", "why_tests_cant": "Depends on where in the file and in which block the selection lies, on the comments and semicolons around it, and on the character that is removed from the printed text; tests have a few selections in small files.", "anchors": ["crates/lsp/src/handlers_format.rs: document_range_formatting, find_deepest_enclosing_logical_lines, text_non_whitespace_range", "crates/air_r_formatter/src/r/auxiliary/root.rs: FormatRRoot", "crates/lsp/src/to_proto.rs: replace_range_edit"]}
{"id": "C61", "title": "Arguments, parameters and chains are all on one line or each on a line of its own", "statement": "In a formatted file the arguments of a call are either all on lines of their own, one level deeper than the closing delimiter, or each starts on the line on which the one before ends. In the second case everything from the opening to the closing delimiter is on one line, except that a function or block without comments of its own as last argument, or a call as only argument, may contain line breaks. A string followed by a block (`test_that(\"title\", { ... })`) is never put on lines of its own. Parameters of functions and operands of a chain of operators are likewise on one line or each on a line of its own. Unless a line break after it is kept, an assignment operator is followed by a space and the right side on the same line.", "quantifier": "every file without skip and table directives, every call, function, chain and assignment in it, all options, every printer that breaks groups consistently", "why_tests_cant": "Depends on where the call stands, on comments, omitted arguments, the kind of the last argument and on which of the layouts the printer picks; snapshot tests show a few calls at one line width.", "anchors": ["crates/air_r_formatter/src/r/auxiliary/call_arguments.rs: RCallLikeArguments, should_group_last_argument, argument_is_groupable, is_hugging_call, write_grouped_arguments", "crates/air_r_formatter/src/r/auxiliary/parameters.rs: FormatRParameters", "crates/air_r_formatter/src/r/auxiliary/binary_expression.rs: fmt_binary_chain, fmt_binary_assignment"]}
{"id": "C62", "title": "The spaces of an expression printed on one line do not depend on the source", "statement": "Wherever in a formatted file an expression without comments stands on one line, the spaces in it are determined by its tokens: one space on both sides of an operator, none around `^`, `**`, `:`, `?`, `$`, `@`, `::` and `:::` and after unary operators (one after `~` unless a name, number or string follows), none before and one after a comma (none between arguments omitted at the beginning), none inside parentheses and brackets, none between a function and its arguments, one after `if`, `for` and `while`, around `in` and `else`, before bodies and inside `{{ x }}`. Non-empty blocks (other than `{{ x }}`) and loops without braces in the source are never on one line.", "quantifier": "every file without skip and table directives, every expression in it that contains no comments, all options, every layout of the printer", "why_tests_cant": "Every rule of the formatter writes its own spaces, and the same expression is printed by different rules depending on where it stands (chains, hugged arguments, right sides of assignments, omitted arguments); snapshot tests show single combinations.", "anchors": ["crates/air_r_formatter/src/r/auxiliary/binary_expression.rs: fmt_binary_sticky, fmt_binary_assignment, fmt_binary_chain", "crates/air_r_formatter/src/r/auxiliary/unary_expression.rs: FormatRUnaryExpression", "crates/air_r_formatter/src/r/auxiliary/call_arguments.rs: RCallLikeArguments", "crates/air_r_formatter/src/r/auxiliary/if_statement.rs, for_statement.rs, while_statement.rs, function_definition.rs, braced_expressions.rs"]}
{"id": "C63", "title": "White space of the source does not matter", "statement": "Two R files that consist of the same tokens and comments in the same order, with line breaks and semicolons at the same places, and that differ only in blanks (spaces, tabs, indentation) and in the number of empty lines where there are two or more, are formatted to the same text under the same settings, unless code in them is excluded from formatting or formatted as a table. In particular comments are attached to the same code in both.", "quantifier": "for all pairs of files, settings, printers that choose some layout, indentation units", "why_tests_cant": "There are infinitely many ways to space the same program; a test compares a few pairs of texts, and a dependency on blanks in one of the rules, in the attachment of comments or in the count of empty lines shows up for particular pairs only.", "anchors": ["crates/air_r_parser/src/parse.rs", "crates/air_r_formatter/src/comments.rs", "crates/air_r_formatter/src/r/auxiliary"]}
{"id": "C64", "title": "The server keeps to what the client can do", "statement": "In every session, from the start of the server on, each message the language server sends on its own initiative is one the client declared to understand in its initialize request: capabilities are registered only of the kinds the client can register dynamically, and configuration is requested only if the client answers such requests, and then only about the server's own sections and about documents that are open. On 'initialized' everything that can be registered is registered in one message, including each configuration section the server ever asks for. The encoding named in the answer to initialize is UTF-8 exactly if offered, UTF-16 otherwise, and is the one used for every document opened afterwards.", "quantifier": "all sequences of client messages, answers of the client and file system states; all client capabilities", "why_tests_cant": "The capabilities of the client only matter much later in the session than where they are given, in combination with any order of other events; tests run with one fixed client.", "anchors": ["crates/lsp/src/handlers.rs:handle_initialized", "crates/lsp/src/handlers_state.rs:initialize", "crates/lsp/src/handlers_state.rs:update_config", "crates/lsp/src/capabilities.rs:AirClientCapabilities"]}
{"id": "C65", "title": "A comment stays with its statement", "statement": "Formatting a file prints the statements in their order, each on lines of its own. The lines of a statement hold its tokens (up to added braces and rewritten assignment operators), before the first of them exactly the comments that stood on the lines before the statement, after the last of them exactly the comments at the end of its line, both in their order, and in between exactly the comments that were inside of the statement. Comments after the last statement stay after it. The same holds for the statements of every block; the comments between the head of a loop, function or condition and its opening brace become the first ones in the block, those between `else` and its block as well, after the comments on lines of their own before `else`, and those at the end of the line before `else` move to the first statement of the block before it; no other comment enters or leaves a block.", "quantifier": "for every tree of a file with at least one statement and no suppressed file, all comments at all places except those where comments get lost or doubled (C37), every block of a file without skip and table directives, all options, and every layout", "why_tests_cant": "a snapshot shows some comments around some statements; that no comment moves to another statement has to hold for all combinations of comments, blank lines, statements and line breaks chosen by the printer", "anchors": ["crates/air_r_formatter/src/comments.rs:place_comment", "crates/air_r_formatter/src/comments.rs:RCommentStyle", "crates/air_r_formatter/src/r/lists/expression_list.rs:fmt"]}
{"id": "C66", "title": "Untrusted workspaces cannot choose the executable", "statement": "In a workspace that is not trusted, the VS Code extension only ever starts the air executable that it ships, whatever `air.executableStrategy` and `air.executablePath` say and however often the server is started, stopped and restarted. In a trusted workspace the strategy decides: `bundled` and `environment` fall back on each other as documented, `path` never falls back.", "quantifier": "all workspaces, settings, machines, and all sequences of operations on the server", "why_tests_cant": "Tests run with one trusted workspace and the bundled executable; the security claim is about every combination of settings.", "anchors": ["editors/code/src/binary.ts:10-128", "editors/code/src/lsp.ts:115-230"]}
{"id": "C67", "title": "One server per window", "statement": "The VS Code extension never has more than one air server running in a window. The state that it reports, its client and the path of the executable agree at all times; starting twice or stopping twice does nothing; a restart uses the current settings.", "quantifier": "all sequences of start, stop and restart with arbitrary failures", "why_tests_cant": "It is an invariant of a state machine over all sequences of operations and failures.", "anchors": ["editors/code/src/lsp.ts:35-113", "editors/code/src/lsp.ts:115-258"]}
{"id": "C68", "title": "Terminals get the directory of the running executable if the user wants it", "statement": "Integrated terminals have on their PATH the directory of the executable of the running server, and nothing once it is stopped; `air.addExecutableToTerminalPath` turns this off.", "quantifier": "all sequences of operations on the server and changes of settings", "why_tests_cant": "The manager follows two independent streams of events; tests see a few interleavings.", "anchors": ["editors/code/src/environment.ts:10-76", "editors/code/src/settings.ts:35-47"]}
{"id": "C69", "title": "Initialising a folder only adds, and only once", "statement": "The command that initialises a workspace folder keeps the files that are there: an existing `air.toml`, `.air.toml` and `extensions.json` are left alone, `.Rbuildignore` only gets missing lines at its end with its own line endings, and of the settings only the formatter of R and Quarto files is set. Running it a second time changes nothing.", "quantifier": "all contents of all files", "why_tests_cant": "It quantifies over all contents of `.Rbuildignore`, with all mixtures of line endings.", "anchors": ["editors/code/src/command/workspace-folder-initialization.ts:64-210"]}
{"id": "C70", "title": "Folder commands work on the picked folder, with everything saved", "statement": "Formatting or initialising a workspace folder happens for the folder that the user has picked. Files are only touched after all unsaved changes to documents in that folder have been saved, which needs the consent of the user; documents elsewhere are not saved.", "quantifier": "all lists of folders, picks and open documents", "why_tests_cant": "Which documents are in a folder is decided by comparing paths; tests have one folder.", "anchors": ["editors/code/src/command/workspace-folder-formatting.ts:43-103", "editors/code/src/command/workspace-folder-initialization.ts:22-47", "editors/code/src/workspace.ts:71-194"]}
{"id": "C71", "title": "Settings for the executable come from the outermost folder", "statement": "With several open folders, the settings for the executable are taken from one of them that exists and has the shortest path.", "quantifier": "all lists of folders", "why_tests_cant": "It is a minimum over lists of any length.", "anchors": ["editors/code/src/workspace.ts:16-58"]}
{"id": "C72", "title": "The server gets the configuration for the language of a document", "statement": "When the server asks the VS Code client for the configuration of an open document, it gets the values for the language of that document (for example those of `[r]`), one for each item that it asked for.", "quantifier": "all documents and requests", "why_tests_cant": "It depends on the identity of objects that the test doubles of an editor do not reproduce.", "anchors": ["editors/code/src/lsp.ts:140-192"]}
{"id": "C73", "title": "Editors follow the settings of the server", "statement": "The active editor uses the indentation that the server has sent for its file in its last `air/syncFileSettings` notification, whichever editors have been active before and since; files that the server has not mentioned keep their options.", "quantifier": "all sequences of notifications and changes of the active editor", "why_tests_cant": "It is about all interleavings of notifications and changes of the active editor.", "anchors": ["editors/code/src/notification/sync-file-settings.ts:31-99", "editors/code/src/utils.ts:1-31"]}
{"id": "C74", "title": "The server understands the log levels that the editor offers", "statement": "Every value that VS Code offers for `air.logLevel` is understood by the server.", "quantifier": "all offered levels", "why_tests_cant": "The two lists live in two languages and two programs; no test compares them.", "anchors": ["editors/code/package.json:62-68", "crates/lsp/src/logging.rs:348-371", "crates/lsp/src/handlers_state.rs", "crates/lsp/src/settings_vsc.rs"]}
{"id": "C75", "title": "The executable in Zed", "statement": "The Zed extension starts the executable of the user's settings, else the one on PATH, else the one that it has already used in this session, else the one of the latest release for the platform. It downloads nothing in the first three cases. It removes only other releases, and only once the latest one has been downloaded.", "quantifier": "all settings, platforms, releases, contents of the working directory, and sequences of starts", "why_tests_cant": "The extension downloads and deletes files; tests would need a network and a platform of each kind.", "anchors": ["editors/zed/src/lib.rs:14-189"]}
{"id": "C76", "title": "The log levels decide what is logged", "statement": "The language server logs messages of air's own crates exactly up to the log level: the environment variable, else the client's setting, else `info`. Dependencies log only if the user has given levels for them, which do not matter for air's crates. Changes of the settings take effect, also after failed ones. The command line logs messages of air's crates up to `--log-level` (default: warnings) and nothing else.", "quantifier": "all levels, directives, targets and sequences of changed settings", "why_tests_cant": "Which directive applies depends on the set of all directives and on prefixes of targets; no test covers the filter.", "anchors": ["crates/lsp/src/logging.rs:160-347", "crates/air/src/logging.rs:8-52", "crates/crates/build.rs"]}
{"id": "C77", "title": "Concurrent requests get the replies of a sequential server", "statement": "tower-lsp runs one task per message, concurrently; each task sends its event to the main loop and waits. For every interleaving of arriving messages, first polls, turns of the main loop, replies and cancellations: the main loop handles the accepted messages in the order in which they arrived, leaving out only requests that the client cancelled in time; each result sent to the client is the one of its request in the state after the messages before it; no request gets two replies, and when nothing is left to do every request has exactly one; without new messages the server comes to rest; `initialize` is the first accepted message and the only one of its kind and nothing is accepted after `shutdown`; between the reply to `initialize` and `shutdown` everything is accepted; errors mean what they say; no task panics (closed channels, responses of a wrong type) unless the main loop has crashed, and it does not crash for a client that keeps to the protocol.", "quantifier": "all finite executions of the server with any number of messages, tasks and cancellations, all environments, all clients that use a request id once", "why_tests_cant": "tests send one message after the other and wait for the response; the interleavings of tasks, main loop and cancellations are not under the control of a test", "anchors": ["crates/lsp/src/tower_lsp.rs:27-35", "crates/lsp/src/tower_lsp.rs:143-302", "crates/lsp/src/main_loop.rs:271-297", "crates/lsp/src/main_loop.rs:434-451"]}
{"id": "C78", "title": "Comments stay with their arguments", "statement": "In the formatted file no comment of an argument or parameter list changes sides with an argument: a comment that was between two arguments (in whatever line, before or after the comma, also where arguments are left out as in `x[, # a` ) is attached to one of these two, a comment before the first argument to the first one, a comment after the last one to the last one, and a comment inside of an argument stays inside of it. Comments at the end of the line of an argument go after it, comments on lines of their own before the next one. The order of comments between two arguments is not kept in general (a comment on its own line before the comma comes after a comment right after the comma).", "quantifier": "every program that R reads, with comments anywhere, in all calls, subsets and functions in it, nested in any way", "why_tests_cant": "where a comment goes depends on the combination of line breaks, holes, commas and nesting around it, tests try a few combinations", "anchors": ["crates/air_r_formatter/src/comments.rs:70", "crates/air_r_formatter/src/comments.rs:784"]}
{"id": "C79", "title": "Messages arrive as they were sent", "statement": "Every message that one side sends over the wire of the language server protocol is received by the other side: the same messages in the same order, each as soon as all of its bytes have arrived, however the bytes are cut into pieces on the way. A malformed message is reported and does not keep the messages after it from being received.", "quantifier": "all sequences of messages with at most two headers, all ways to cut their bytes into pieces, all points in time", "why_tests_cant": "The tests decode a handful of messages cut at three fixed places; the ways to cut a stream of messages are unbounded, and so are the ways in which a message can be malformed.", "anchors": ["crates/lsp_test/src/tower_lsp/codec.rs", "crates/lsp_test/src/lsp_client.rs"]}
{"id": "C80", "title": "A path names the same file for air as for the operating system", "statement": "A path given to `air format` or `--stdin-file-path`, relative or absolute, with any `.`, `..` and spare slashes, stands for the file that the operating system finds under it in the current directory. The normalised path is absolute, without `.` and `..`, and normalising it again anywhere changes nothing. The paths that messages show name the same files if they are given to air again.", "quantifier": "All paths (texts), all current directories, all file systems with directories, files and symbolic links.", "why_tests_cant": "Tests use a few paths in temporary directories without symbolic links; paths, directories and file systems are unbounded.", "anchors": ["crates/fs/src/lib.rs:16-40", "crates/workspace/src/discovery.rs:36-37", "crates/workspace/src/discovery.rs:128", "crates/air/src/commands/format/stdin.rs:43-44", "crates/air/src/commands/format/paths.rs:92"]}
{"id": "C81", "title": "Grammar files are read as they are written", "statement": "A text is accepted by `Grammar::from_str` if and only if it is a list of definitions `Name = rule` in which every name that occurs has exactly one definition and different combinators (`|`, `||`, `&&`) are separated by parentheses, with blanks and comments anywhere between the words. The grammar returned has exactly these nodes, each with the rule as written (sequence, alternatives, optional, repeated, labelled parts, nesting of parentheses), and exactly the quoted tokens, none of them twice. There is only one way to read a text.", "quantifier": "all texts; all rules of any depth and size", "why_tests_cant": "the generator of the syntax tree reads one grammar file; a misread precedence, a dropped label or a merged pair of names shows up only for particular combinations of operators and parentheses, of which there are unboundedly many", "anchors": ["crates/biome_ungrammar/src/lexer.rs:63-165", "crates/biome_ungrammar/src/parser.rs:17-270", "crates/biome_ungrammar/src/lib.rs:36-122"]}
{"id": "C82", "title": "What the grammar describes fits into the generated tree", "statement": "For a grammar that the code generator accepts, the generated syntax factory accepts exactly the children that the grammar describes where it should: can_cast of a node or union holds exactly for the kinds that belong to it by the grammar; children that the rule of a node describes never make the node bogus, none is lost or moved; and every part that the rule requires is found in the slot of its field. For R: the checked-in factory (syntax_factory.rs) is the one the generator makes of r.ungram, for every kind and all children, so that children as in r.ungram always make a node of the kind with all required parts present.", "quantifier": "All grammars (with unions nested finitely deep) and all sequences of children; for r.ungram all node kinds and all children.", "why_tests_cant": "The generated code is checked in and is never run on anything but trees of the parser; snapshot tests cannot show that no sequence of children described by the grammar becomes bogus, nor that generator, grammar and generated code agree on every kind.", "anchors": ["xtask/codegen/src/ast.rs:101-427", "xtask/codegen/src/generate_syntax_factory.rs:9-176", "xtask/codegen/r.ungram", "crates/air_r_factory/src/generated/syntax_factory.rs", "crates/air_r_syntax/src/generated/nodes.rs"]}
{"id": "C83", "title": "The parts of syntax nodes by name", "statement": "For every kind of node: what is given to the function (or builder) that makes the node is what the accessor of that name returns; a with_ method replaces the part of that name and leaves the others as they are; no two parts have the same name; in a node that the factory made and that is not bogus an accessor returns what is in its slot, with the type it promises, and panics only for a missing list; when the children are as in r.ungram no accessor panics and every part that is not optional is found; accessors, mutators and functions are those that the generator writes for the fields of r.ungram; and a list made of items and separators contains all of them.", "quantifier": "All kinds of nodes, all arguments of the right types, all slots and children, all lists of items and separators.", "why_tests_cant": "The generated API has hundreds of functions, of which the tests of air call a few on parsed trees; tests do not show that each of them uses the slot the factory uses for that part, for any content.", "anchors": ["crates/air_r_syntax/src/generated/nodes.rs", "crates/air_r_syntax/src/generated/nodes_mut.rs", "crates/air_r_factory/src/generated/node_factory.rs", "xtask/codegen/src/generate_nodes.rs:26-88", "xtask/codegen/src/generate_nodes_mut.rs", "xtask/codegen/src/generate_node_factory.rs"]}
{"id": "C84", "title": "The published schema and air agree on configuration files", "statement": "Every air.toml that air accepts is valid for the JSON schema published in artifacts/air.schema.json, so that an editor with the schema never complains about a working file. Conversely, a file that is valid for the schema is accepted, except if an option is a float or a date (80.0 is an integer for a schema), or the patterns of exclude do not compile.", "quantifier": "all TOML documents, all roots, all ways in which patterns compile", "why_tests_cant": "The only test compares the schema file with the output of schemars; nothing compares what the schema means with what serde accepts, and there are infinitely many documents.", "anchors": ["artifacts/air.schema.json", "xtask/json_schema/src/main.rs", "crates/workspace/src/toml_options.rs:36-235", "crates/settings/src/line_width.rs:47-85", "crates/settings/src/indent_width.rs:46-95"]}
{"id": "C85", "title": "Kinds of the syntax tree, their numbers, texts and classes", "statement": "The conversion of a number into a kind, which is unsafe code, never has undefined behaviour: it gives the kind of this number, and panics for all other numbers. The functions on kinds agree with each other and with the grammar: keywords and punctuation are found by their texts, the text of a kind is its name in the grammar, lists are the kinds with a list rule, pieces of trivia are made of kinds of trivia only. The bogus version of a kind is bogus and can stand where the kind can stand.", "quantifier": "all numbers, all kinds, all words", "why_tests_cant": "A wrong bound in the assertion before the transmute is undefined behaviour that a test does not show reliably; the tables are long and generated, and nothing compares them with each other.", "anchors": ["crates/air_r_syntax/src/lib.rs:12-337", "crates/air_r_syntax/src/generated/kind.rs:8-297", "xtask/codegen/src/r_kinds_src.rs:4-130"]}
{"id": "C86", "title": "Strength of binary operators", "statement": "OperatorPrecedence::try_from_binary_operator gives a strength to every binary operator and to nothing else, and orders operators as R groups them.", "quantifier": "all pairs of kinds", "why_tests_cant": "The function has no test; a missing operator or a wrong order is only visible for one of the pairs.", "anchors": ["crates/air_r_syntax/src/lib.rs:339-397"]}
{"id": "C87", "title": "The generator of kinds", "statement": "For every description of a language, the generated enumeration of kinds has exactly the numbers up to that of its last variant, so that the unsafe conversion from numbers is sound; from_keyword is the inverse of to_string on keywords; and every arm of the macro T! is for a variant. The file for R is the generated one. The macro map_syntax_node, which converts nodes without a check, takes every node for the type of its kind and has an arm for every kind of nodes.", "quantifier": "all descriptions of languages whose variants differ; all kinds of R", "why_tests_cant": "Tests only see the generated file for R as it is; a new kind or keyword changes all numbers, and a wrong arm of an unchecked conversion is undefined behaviour.", "anchors": ["xtask/codegen/src/generate_syntax_kinds.rs:8-188", "xtask/codegen/src/generate_macros.rs:7-68", "xtask/codegen/src/r_kinds_src.rs:3-130", "crates/air_r_syntax/src/generated/kind.rs:8-297", "crates/air_r_syntax/src/generated/macros.rs:15-204", "crates/air_r_formatter/src/cst.rs:9-15"]}
{"id": "C88", "title": "The generator of the formatter does not lose work that is not committed", "statement": "A run of `cargo codegen formatter`, whether it finishes or panics, does not change or delete a file with uncommitted changes unless an option allows it, and it never changes the implementation of a node that exists already and is written by hand.", "quantifier": "all grammars, working trees, states of the git repository, options and contents of files", "why_tests_cant": "A test runs the generator in one repository, in which nothing or one file has changes; what matters is every combination of files, states in git and options, and runs that stop in the middle.", "anchors": ["xtask/codegen/src/formatter.rs:24-119", "xtask/codegen/src/formatter.rs:170-226", "xtask/codegen/src/formatter.rs:243-445"]}
{"id": "C89", "title": "The generator of the formatter makes exactly the modules of the grammar, and is idempotent", "statement": "After a run of `cargo codegen formatter` that finishes, the files below `src/r` of the formatter are exactly one for each type of node and a `mod.rs` for each directory, which declares exactly its modules; running it again changes no file. Different node names `R..` have different modules, but for the keywords of Rust; for the grammar of R all modules are different and are the files of the repository.", "quantifier": "all grammars, working trees and states of the git repository; all names in ASCII; the grammar of R", "why_tests_cant": "That nothing stale remains and that a second run changes nothing depends on all that may be in the directory before, and on collisions of names in any grammar.", "anchors": ["xtask/codegen/src/formatter.rs:128-226", "xtask/codegen/src/formatter.rs:243-445", "xtask/codegen/src/formatter.rs:616-665", "crates/air_r_formatter/src/r/mod.rs"]}
{"id": "C90", "title": "An edit sent as changes of a document has the effect of the edit", "statement": "The changes that `doc_edit_vec` makes of a `TextEdit` have, when they arrive in `Document::on_did_change`, the effect of applying the edit to the text of the document.", "quantifier": "all texts, edits, encodings of positions and line ends", "why_tests_cant": "The tests send an edit with one replacement; positions, encodings and line ends, and edits with several replacements, are not exhausted by examples.", "anchors": ["crates/aether_lsp_utils/src/proto/to_proto.rs:84-100", "crates/aether_lsp_utils/src/proto/from_proto.rs:81-125", "crates/lsp/src/documents.rs:155-173"]}
