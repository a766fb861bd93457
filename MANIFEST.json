{
 "claims": [
  {
   "property": "C01",
   "status": "proved",
   "theorems": [
    "Verif.LineEnding.C01_normalize_spec",
    "Verif.LineEnding.C01_removes_exactly",
    "Verif.LineEnding.C01_normalize_ref",
    "Verif.LineEnding.C01_utf8_safe",
    "Verif.LineEnding.C01_residual_crlf_iff"
   ],
   "note": "In-place loop = one-pass replacement, on bytes and (via the UTF-8 encoding) on texts; never out of bounds; borrowing variant agrees. Sharpness: a CRLF survives exactly for CR CR LF inputs."
  },
  {
   "property": "C02",
   "status": "proved",
   "theorems": [
    "Verif.LineEnding.C02_auto_crlf_iff",
    "Verif.LineEnding.C02_setting",
    "Verif.LineEnding.C02_no_crlf_unchanged",
    "Verif.LineEnding.C02_normalize_toCrlf",
    "Verif.LineEnding.C02_toCrlf_normalize_iff"
   ],
   "note": "Detection iff CRLF occurs; round trip iff every LF is preceded by CR."
  },
  {
   "property": "C03",
   "status": "proved",
   "theorems": [
    "Verif.TextEdit.C03_apply_iff",
    "Verif.TextEdit.C03_apply_total",
    "Verif.TextEdit.C03_apply_length"
   ],
   "note": "apply = simultaneous one-pass replacement (Edits), panic-free on character boundaries, length law."
  },
  {
   "property": "C04",
   "status": "partial",
   "theorems": [
    "Verif.TextEdit.C04_build_panics_iff",
    "Verif.TextEdit.C04_build_valid_partial",
    "Verif.TextEdit.C04_duplicate_calls_conflict",
    "Verif.TextEdit.C04_early"
   ],
   "note": "Panic condition characterised exactly for all call sequences. Validity proved for callers not repeating an identical non-empty replacement; for repeated ones the claim is false (C04_duplicate_calls_conflict). C04_early: what the order of the calls has to do with the panic."
  },
  {
   "property": "C05",
   "status": "proved",
   "theorems": [
    "Verif.TextEdit.C05_diff_correct"
   ],
   "note": "For every chunk list that re-assembles to both texts (contract of the external diff library)."
  },
  {
   "property": "C06",
   "status": "proved",
   "theorems": [
    "Verif.TextEdit.C06_union_failure",
    "Verif.TextEdit.C06_union_success",
    "Verif.TextEdit.C06_union_succeeds_iff",
    "Verif.TextEdit.C06_union_not_symmetric"
   ],
   "note": "Failure leaves everything unchanged; success gives exactly both edits, validly ordered, applicable (C06_union_success). C06_union_succeeds_iff: exactly when it succeeds; for ranges with the same start the outcome depends on which edit is the receiver (C06_union_not_symmetric)."
  },
  {
   "property": "C07",
   "status": "proved",
   "theorems": [
    "Verif.TextEdit.C07_apply_to_offset",
    "Verif.TextEdit.C07_invalidates",
    "Verif.TextEdit.C07_not_invalidated"
   ],
   "note": "Deleted iff strictly inside a range; otherwise the text before/after the mapped offset is the edited text before/after the offset. C07_invalidates, C07_not_invalidated: when the cheap test of a whole edit says that an offset is lost."
  },
  {
   "property": "C08",
   "status": "proved",
   "theorems": [
    "Verif.LineIndex.C08_offset_to_position",
    "Verif.LineIndex.C08_position_to_offset",
    "Verif.LineIndex.C08_roundtrip",
    "Verif.LineIndex.C08_order"
   ],
   "note": "All three encodings; conversion both ways, round trip, order. The external line index is transcribed (see DESIGN.md)."
  },
  {
   "property": "C09",
   "status": "partial",
   "theorems": [
    "Verif.TextChanges.C09_sequential",
    "Verif.TextChanges.C09_index_reuse",
    "Verif.TextChanges.C09_tracks_editor",
    "Verif.TextChanges.C09_lone_cr_desync"
   ],
   "note": "Sequential semantics, soundness of line index reuse, and tracking of an editor buffer with any mix of LF/CRLF. False for buffers with a lone CR (C09_lone_cr_desync)."
  },
  {
   "property": "C10",
   "status": "partial",
   "theorems": [
    "Verif.TextChanges.C10_simultaneous_partial",
    "Verif.TextChanges.C10_same_position_reversed",
    "Verif.TextChanges.C10_insert_lost"
   ],
   "note": "Proved for edits with pairwise different starts; false for edits sharing a start (C10_same_position_reversed, C10_insert_lost)."
  },
  {
   "property": "C11",
   "status": "proved",
   "theorems": [
    "Verif.TextChanges.C11_edits_reach_formatted",
    "Verif.TextChanges.C11_mixed",
    "Verif.TextChanges.C11_range_edit"
   ],
   "note": "Whole-document and range edits, LF and CRLF buffers, all encodings."
  },
  {
   "property": "C12",
   "status": "partial",
   "theorems": [
    "Verif.Lsp.C12_lf_only_partial",
    "Verif.Lsp.C12_crlf_remains"
   ],
   "note": "False when a change splits or completes a CR LF pair (C12_crlf_remains); proved for texts and changes in which every CR is followed by LF."
  },
  {
   "property": "C13",
   "status": "proved",
   "theorems": [
    "Verif.SortedStrings.C13_display",
    "Verif.SortedStrings.C13_display_injective",
    "Verif.SortedStrings.C13_contains_iff",
    "Verif.SortedStrings.C13_order_irrelevant",
    "Verif.SortedStrings.C13_merge_iff"
   ],
   "note": "Membership by binary search in the sorted list; order and multiplicity irrelevant; merge = union."
  },
  {
   "property": "C14",
   "status": "proved",
   "theorems": [
    "Verif.Settings.C14_documented_settings",
    "Verif.Settings.C14_accepted_iff",
    "Verif.Settings.C14_empty_is_default"
   ],
   "note": "From the parsed TOML tree: accepted iff every option is documented and valid; accepted files yield exactly the documented settings; the empty file yields the defaults. TOML syntax and glob compilation are parameters."
  },
  {
   "property": "C15",
   "status": "proved",
   "theorems": [
    "Verif.Resolver.C15_resolve_closest",
    "Verif.Resolver.C15_fallback",
    "Verif.Resolver.C15_returned_values",
    "Verif.Resolver.C15_matches"
   ],
   "note": "Refinement of the sorted item list to a finite map for all operation histories: returned values, longest-prefix lookup, fallback, listing of all enclosing directories."
  },
  {
   "property": "C16",
   "status": "proved",
   "theorems": [
    "Verif.Discovery.C16_discovered",
    "Verif.Discovery.C16_nearest_settings",
    "Verif.Discovery.C16_order_irrelevant",
    "Verif.Discovery.C16_find"
   ],
   "note": "For every file system and path list: exactly the nearest configurations are found, each once; failure iff one of them is invalid; given paths resolve to their nearest configuration; order and repetition of paths irrelevant."
  },
  {
   "property": "C17",
   "status": "proved",
   "theorems": [
    "Verif.Discovery.C17_selected",
    "Verif.Discovery.C17_errors",
    "Verif.Discovery.C17_no_duplicates",
    "Verif.Discovery.C17_schedule_irrelevant",
    "Verif.Discovery.C17_terminates",
    "Verif.Discovery.C17_result_exists",
    "Verif.Discovery.C17_no_panic"
   ],
   "note": "Parallel walk as a relation over all thread counts, schedules and finishing orders: exact selection, error reporting, no duplicates, schedule independence, termination, existence, absence of panics. The walker's own filters (hidden, git-ignored) are a parameter."
  },
  {
   "property": "C18",
   "status": "proved",
   "theorems": [
    "Verif.Cli.C18_stdin_like_file",
    "Verif.Cli.C18_not_selected"
   ],
   "note": "End to end over Run: same status and text as formatting a file with this text named at this path; unselected text passes through."
  },
  {
   "property": "C19",
   "status": "proved",
   "theorems": [
    "Verif.Cli.C19_check_status",
    "Verif.Cli.C19_write_status",
    "Verif.Cli.C19_write_status_distinct",
    "Verif.Cli.C19_invalid_invocation",
    "Verif.Cli.C19_some_outcome"
   ],
   "note": "Check and write mode over discovered files, invalid invocations, existence of an outcome. Failing to print messages is not modelled."
  },
  {
   "property": "C20",
   "status": "proved",
   "theorems": [
    "Verif.Cli.C20_check",
    "Verif.Cli.C20_untouched",
    "Verif.Cli.C20_formatted",
    "Verif.Cli.C20_check_predicts_write",
    "Verif.Cli.C20_run_formats"
   ],
   "note": "For an arbitrary formatter and write failures. Prediction of write mode needs distinct files or an idempotent formatter. C20_run_formats: end to end over Run, paths not nested."
  },
  {
   "property": "C21",
   "status": "proved",
   "theorems": [
    "Verif.Cli.C21_converges",
    "Verif.Cli.C21_second_run"
   ],
   "note": "End to end over Run, with any schedules of the two runs, and files listed repeatedly. C21_converges only needs idempotence on the files of the run."
  },
  {
   "property": "C22",
   "status": "proved",
   "theorems": [
    "Verif.Lsp.C22_agree"
   ],
   "note": "The server's exclusion test agrees with the command line's file selection for the same file and settings. The server takes every document to be R (handlers_format.rs:27), so the language id never excludes anything."
  },
  {
   "property": "C23",
   "status": "proved",
   "theorems": [
    "Verif.Lsp.C23_loop",
    "Verif.Lsp.C23_failure",
    "Verif.Lsp.C23_all_answered"
   ],
   "note": "For every sequence of events and arbitrary answers of client, disk and formatter. Responses are in order, one per request, until shutdown or a panic; panics are excluded by C51."
  },
  {
   "property": "C24",
   "status": "proved",
   "theorems": [
    "Verif.Lsp.C24_store",
    "Verif.Lsp.C24_editor",
    "Verif.Lsp.C24_available",
    "Verif.Lsp.C24_version",
    "Verif.Lsp.C24_isolated",
    "Verif.Lsp.C24_unknown",
    "Verif.Lsp.C24_old_version"
   ],
   "note": "Over all histories: availability, text, versions, isolation, unknown documents; C24_editor relates the text to the editor's own buffer. C24_old_version: an older version number ends the server."
  },
  {
   "property": "C25",
   "status": "proved",
   "theorems": [
    "Verif.Lsp.C25_attribution",
    "Verif.Lsp.C25_open",
    "Verif.Lsp.C25_wrong_length"
   ],
   "note": "Every document gets its own answers or keeps the old ones; wrong length or error changes nothing; valid answers always succeed; opening a document likewise. C25_attribution also: if the update succeeds then the global settings were valid."
  },
  {
   "property": "C26",
   "status": "partial",
   "theorems": [
    "Verif.Lsp.C26_server",
    "Verif.Lsp.C26_settings",
    "Verif.Lsp.C26_other_urls",
    "Verif.Lsp.C26_nearest_partial",
    "Verif.Lsp.C26_nested_ignored",
    "Verif.Lsp.C26_parent_change_missed"
   ],
   "note": "Proved: settings are those known for the innermost open folder, with the exact history of what is known. False: configurations below the folder are ignored (C26_nested_ignored), changes above it are missed (C26_parent_change_missed)."
  },
  {
   "property": "C27",
   "status": "proved",
   "theorems": [
    "Verif.Lsp.C27_merge",
    "Verif.Lsp.C27_options",
    "Verif.Lsp.C27_toml_wins"
   ],
   "note": "Options passed to the formatter, in every reachable state; under an air.toml the editor's options have no influence at all."
  },
  {
   "property": "C28",
   "status": "partial",
   "theorems": [
    "Verif.Lsp.C28_formatting",
    "Verif.Lsp.C28_not_open",
    "Verif.Lsp.C28_line_ends",
    "Verif.Lsp.C28_crlf_doubled",
    "Verif.Lsp.C28_stale_line_ends"
   ],
   "note": "Proved end to end against the editor's buffer, also with mixed line ends, for formatted texts without CR and any diff re-assembling to both texts. False with line-ending = crlf on a CR LF document (C28_crlf_doubled)."
  },
  {
   "property": "C29",
   "status": "partial",
   "theorems": [
    "Verif.RangeFormat.C29_lines",
    "Verif.RangeFormat.C29_range",
    "Verif.RangeFormat.C29_edit",
    "Verif.RangeFormat.C29_selection_to_end_ignored",
    "Verif.RangeFormat.C29_selection_to_comment",
    "Verif.RangeFormat.C29_cursor_at_line_end",
    "Verif.RangeFormat.C29_next_included"
   ],
   "note": "For every tree in which expression lists stand where the grammar allows them (Lists; the trees that the parser builds for texts that R accepts are such, C57_parses). C29_lines: exact set of lines; C29_range, C29_edit: what is replaced. Not so that every selection is formatted: nothing happens if it extends past the last expression (C29_selection_to_end_ignored) or is a cursor at the end of a line (C29_cursor_at_line_end)."
  },
  {
   "property": "C30",
   "status": "proved",
   "theorems": [
    "Verif.Directive.C30_directive",
    "Verif.Directive.C30_generated",
    "Verif.Directive.C30_exclusive"
   ],
   "note": "For every text of a comment: C30_directive (iff), C30_generated, C30_exclusive. White space is the Unicode property, spelled out as a list of the 25 characters."
  },
  {
   "property": "C31",
   "status": "partial",
   "theorems": [
    "Verif.Format.C31_skip",
    "Verif.Format.C31_skip_file",
    "Verif.Format.C31_only"
   ],
   "note": "C31_skip and C31_skip_file: what is to be left as written is, byte for byte, for every layout (positions as documented; requests on table cells and on the inner braces of {{ x }} are deliberately ignored by air). C31_only: where nothing asks for it the output does not depend on the blanks of the source. Missing: the clause on tables, see C40."
  },
  {
   "property": "C32",
   "status": "proved",
   "theorems": [
    "Verif.Parser.C32_lossless",
    "Verif.Parser.C32_bom_panics"
   ],
   "note": "For every text and every tree-sitter tree of the shape described by ShapedRoot whose leaves tile the text (Tiled). C32_bom_panics: the condition on gaps fails for a file starting with a byte order mark, where the parser panics."
  },
  {
   "property": "C33",
   "status": "proved",
   "theorems": [
    "Verif.Parser.C33_trivia"
   ],
   "note": "Comments exactly once and in order; trailing trivia stay on the line of the token; leading comments are on their own line except before the first token. Same hypotheses as C32."
  },
  {
   "property": "C34",
   "status": "proved",
   "theorems": [
    "Verif.Parser.C34_positions",
    "Verif.Parser.C34_alternating"
   ],
   "note": "C34_positions describes the events of one argument list (position of every argument, comma and hole), C34_alternating the argument lists of the whole parsed tree."
  },
  {
   "property": "C35",
   "status": "proved",
   "theorems": [
    "Verif.Parser.C35_balanced",
    "Verif.Parser.C35_error",
    "Verif.Parser.C35_kinds",
    "Verif.Parser.C35_names",
    "Verif.Parser.C35_names_injective",
    "Verif.Parser.C35_texts_injective"
   ],
   "note": "C35_balanced for trees as in C32; C35_error for texts with syntax errors, whatever the tree; C35_kinds and C35_names for the table of node names. C35_texts_injective: different kinds of tokens have different texts."
  },
  {
   "property": "C36",
   "status": "proved",
   "theorems": [
    "Verif.Format.C36_rewriting",
    "Verif.Format.C36_tokens",
    "Verif.Format.C36_up_to_braces",
    "Verif.Format.C36_preserve",
    "Verif.Format.C36_layout_exists"
   ],
   "note": "For every annotated tree and every layout the printer may choose. C36_rewriting relates the tokens to a program rewritten as described by Becomess (a specification written independently of the rules, Spec/Becomes.lean); C36_tokens, C36_up_to_braces and C36_preserve state the same without trees."
  },
  {
   "property": "C37",
   "status": "partial",
   "theorems": [
    "Verif.Format.C37_attached_once",
    "Verif.Format.C37_once_partial",
    "Verif.Format.C37_once_unskipped_partial",
    "Verif.Format.C37_else_comment_lost",
    "Verif.Format.C37_hole_comment_lost",
    "Verif.Format.C37_table_comment_twice",
    "Verif.Format.C37_no_token_in_comment_partial",
    "Verif.Format.C37_table_comment_swallows",
    "Verif.Format.C37_source_no_token_in_comment_partial"
   ],
   "note": "Every comment is attached to exactly one node (C37_attached_once, all files), and printed exactly once for every layout unless it leads a node that is kept as written from after its beginning, or leads the arguments of a table (C37_once_partial, C37_once_unskipped_partial). False at these places: C37_else_comment_lost, C37_hole_comment_lost, C37_table_comment_twice. That no token ends up in a comment holds under the conditions of C38 (C37_source_no_token_in_comment_partial); false for comments inside of table cells (C37_table_comment_swallows)."
  },
  {
   "property": "C38",
   "status": "partial",
   "theorems": [
    "Verif.Format.C38_reads_partial",
    "Verif.Format.C38_reads_calm_partial",
    "Verif.Format.C38_unary_comment_splits",
    "Verif.Format.C38_callee_comment_splits",
    "Verif.Format.C38_skipped_call_splits",
    "Verif.Format.C38_source_partial",
    "Verif.Format.C38_plain_partial"
   ],
   "note": "Proved for every layout if comments stand at none of a few places in the source: C38_plain_partial for files without directives and listed functions, C38_source_partial for all files, comments being attached by the rules of place_comment (risky: next to a unary operator, between a callee and its arguments, next to `::`; SteadyL: a node that is kept as written and gets new braces around it must read the same there). False at these places: C38_unary_comment_splits, C38_callee_comment_splits, C38_skipped_call_splits. Does not cover re-lexing of adjacent tokens."
  },
  {
   "property": "C39",
   "status": "partial",
   "theorems": [
    "Verif.Format.C39_reader",
    "Verif.Format.C39_grammar",
    "Verif.Format.C39_reads_partial",
    "Verif.Format.C39_settled",
    "Verif.Format.C39_twice_partial",
    "Verif.Format.C39_preserve",
    "Verif.Format.C39_target_clash",
    "Verif.Format.C39_skip_clash",
    "Verif.Format.C39_source_partial"
   ],
   "note": "R's grammar is modelled with a reader (Spec/Grammar.lean) that is proved to find every program of the grammar. C39_reads_partial, and C39_source_partial with conditions on the source only: for every layout R reads the formatted text as the source program up to exchanged operators and braces; C39_twice_partial: formatting again exchanges nothing; C39_preserve without conditions. Conditions: comments as in C38, and no `=` whose target is an unparenthesised `<-` assignment, no skip directive inside a chain of `=`. In both excluded cases the claim is false: C39_target_clash, C39_skip_clash."
  },
  {
   "property": "C40",
   "status": "partial",
   "theorems": [
    "Verif.Format.C40_rows",
    "Verif.Format.C40_no_panic",
    "Verif.Format.C40_order",
    "Verif.Format.C40_named",
    "Verif.Format.C40_layout",
    "Verif.Format.C40_columns_partial",
    "Verif.Format.C40_comment_misaligned"
   ],
   "note": "C40_columns_partial: for any rows of any lengths, separators and decimal points of a column are at the same position in every row, rows stay on one line, empty lines between rows are kept; C40_rows: rows begin exactly where the source has a line break before an argument; C40_order, C40_no_panic, C40_layout for all cells. Missing: columns for tables with a comment inside a cell, before a number, or before a cell that is not first in its row; C40_comment_misaligned proves that a comment before a number breaks the alignment. C40_named: named arguments of a table are on lines of their own."
  },
  {
   "property": "C41",
   "status": "partial",
   "theorems": [
    "Verif.Format.C41_autobrace",
    "Verif.Format.C41_consistent",
    "Verif.Format.C41_consistent_reads_partial",
    "Verif.Format.C41_no_double",
    "Verif.Format.C41_multiline_if_not_braced",
    "Verif.Format.C41_multiline_function_not_braced"
   ],
   "note": "For every layout. C41_autobrace and C41_consistent: braces are added to loop bodies always, to function bodies on a new line, and to all branches or none of an if statement as the criteria of Spec/Becomes.lean say. The documentation says that braces are added if any part spans several lines; this is false (C41_multiline_if_not_braced, C41_multiline_function_not_braced). That a statement exceeding the line length gets braces is a decision of the printer, which is not modelled."
  },
  {
   "property": "C42",
   "status": "proved",
   "theorems": [
    "Verif.Format.C42_top",
    "Verif.Format.C42_block"
   ],
   "note": "For every layout. C42_top: the statements of a file; C42_block: the statements of every block in a file without skip and table directives."
  },
  {
   "property": "C43",
   "status": "partial",
   "theorems": [
    "Verif.Lsp.C43_pushed",
    "Verif.Lsp.C43_complete",
    "Verif.Lsp.C43_switched",
    "Verif.Lsp.C43_file",
    "Verif.Lsp.C43_deletion_missed"
   ],
   "note": "Every push is sound, and complete when sent after a change of a configuration. No push is sent when a configuration is deleted (C43_deletion_missed). C43_switched: what becomes of the switch; C43_file: files saved reload the settings of the workspaces above them."
  },
  {
   "property": "C44",
   "status": "partial",
   "theorems": [
    "Verif.LineEnding.C44_first_detected_false",
    "Verif.LineEnding.C44_first_detected_partial"
   ],
   "note": "False for mixed texts starting with LF (C44_first_detected_false); proved for all others."
  },
  {
   "property": "C45",
   "status": "partial",
   "theorems": [
    "Verif.LineIndex.C45_column_not_clamped",
    "Verif.LineIndex.C45_missing_line_partial"
   ],
   "note": "Missing lines are errors; columns past the line end are not clamped (C45_column_not_clamped)."
  },
  {
   "property": "C46",
   "status": "partial",
   "theorems": [
    "Verif.FilePatterns.C46_comma_extension_included",
    "Verif.FilePatterns.C46_default_include_partial",
    "Verif.FilePatterns.C46_default_exclude"
   ],
   "note": "False: the include pattern also matches the extension ',' (C46_comma_extension_included). Exact characterisation of the default include and exclude rules otherwise."
  },
  {
   "property": "C47",
   "status": "partial",
   "theorems": [
    "Verif.Discovery.C47_other_paths_partial",
    "Verif.Discovery.C47_other_paths_matter"
   ],
   "note": "False for nested configurations (C47_other_paths_matter); proved when no configuration found for another path lies between the given path and the file."
  },
  {
   "property": "C48",
   "status": "partial",
   "theorems": [
    "Verif.Cli.C48_crash_partial",
    "Verif.Cli.C48_contents_lost",
    "Verif.Cli.C48_complete_run"
   ],
   "note": "False for the file being written (C48_contents_lost: truncate, then write); proved for all other files at all crash points."
  },
  {
   "property": "C49",
   "status": "partial",
   "theorems": [
    "Verif.Discovery.C49_named_or_found_partial",
    "Verif.Discovery.C49_exception_differs",
    "Verif.Discovery.C49_nested_differs"
   ],
   "note": "False with exception patterns (C49_exception_differs) and with nested configurations (C49_nested_differs); proved for patterns without exceptions under one configuration, outside of hidden and git-ignored files."
  },
  {
   "property": "C50",
   "status": "proved",
   "theorems": [
    "Verif.Lsp.C50_coherent"
   ],
   "note": "Invariant over all histories."
  },
  {
   "property": "C51",
   "status": "partial",
   "theorems": [
    "Verif.Lsp.C51_survives",
    "Verif.Lsp.C51_untitled_crash",
    "Verif.Lsp.C51_crashes"
   ],
   "note": "Proved for documents named by absolute normalised file paths or without a path; false for untitled documents with a path outside of the folder (C51_untitled_crash)."
  },
  {
   "property": "C52",
   "status": "proved",
   "theorems": [
    "Verif.Parser.C52_iterator",
    "Verif.Parser.C52_skip",
    "Verif.Parser.C52_complete",
    "Verif.Parser.C52_visits"
   ],
   "note": "Refinement of the cursor-based iterator to the list of visits, for every sequence of calls. tree_sitter::TreeCursor is modelled after its documentation."
  },
  {
   "property": "C53",
   "status": "partial",
   "theorems": [
    "Verif.Format.C53_arguments_partial",
    "Verif.Format.C53_parameters",
    "Verif.Format.C53_chain",
    "Verif.Format.C53_assignment",
    "Verif.Format.C53_titled_removed",
    "Verif.Format.C53_table_removed"
   ],
   "note": "For every layout and every occurrence in a file without skip and table directives: C53_arguments_partial (calls, [ and [[; arguments left out in between must have no comments), C53_parameters, C53_chain, C53_assignment. False for calls with a string and a block as arguments (C53_titled_removed) and inside of table cells (C53_table_removed)."
  },
  {
   "property": "C54",
   "status": "partial",
   "theorems": [
    "Verif.Format.C54_lexed_partial",
    "Verif.Format.C54_reads_text_partial"
   ],
   "note": "For files that fulfil the conditions of C38 (no comments at risky places, kept nodes steady): R's lexer (transcribed from R's documentation) finds the printed tokens in every layout with every indentation; with C39, R reads the bytes of the formatted file as the program of the source. Missing: the risky comments, for which C37/C38 are false; output with CRLF line ends (carriage returns are blanks for the lexer except inside of strings, see C02)."
  },
  {
   "property": "C55",
   "status": "partial",
   "theorems": [
    "Verif.Format.C55_neat_partial",
    "Verif.Format.C55_plain_partial",
    "Verif.Format.C55_empty",
    "Verif.Format.C55_comments_only_indented"
   ],
   "note": "For every file with statements in which nothing is skipped or printed as a table, in every layout (C55_neat_partial, C55_plain_partial); files without statements and comments become empty (C55_empty). False for files with comments only: they are indented (C55_comments_only_indented; from the documented behaviour of format_dangling_comments, not observed). Missing: tables, whose cells are padded, and skipped code, which is printed as written."
  },
  {
   "property": "C56",
   "status": "partial",
   "theorems": [
    "Verif.Format.C56_noted_partial",
    "Verif.Format.C56_noted_idempotent_partial",
    "Verif.Format.C56_again_partial",
    "Verif.Format.C56_idempotent_partial",
    "Verif.Format.C56_printer_exists",
    "Verif.Format.C56_blank_first_unstable"
   ],
   "note": "For files without comments and without listed functions, with persistent line breaks, in every layout of a printer (C56_again_partial) and for every printer with consistent choices (C56_idempotent_partial; such printers exist, C56_printer_exists). Strings may contain CR LF. C56_noted_partial and C56_noted_idempotent_partial: the same for files whose comments all lead statements, at top level or in braces at any depth (Exprs.noted), none of which is a directive. False without persistent line breaks: an empty line before the first argument is used up by the first run (C56_blank_first_unstable). Missing: comments at other places (after code, in arguments, at the end of blocks and of the file), skipped code and tables. C57_idempotent_partial and C57_noted_partial state it for the texts."
  },
  {
   "property": "C57",
   "status": "partial",
   "theorems": [
    "Verif.Whole.C57_parses",
    "Verif.Whole.C57_unix",
    "Verif.Whole.C57_formats_partial",
    "Verif.Whole.C57_idempotent_partial",
    "Verif.Whole.C57_noted_partial"
   ],
   "note": "C57_parses holds for every text whose carriage returns stand in front of line feeds, outside of names in backticks (LineEnds; C57_unix: every text without carriage returns), and every tree-sitter tree that agrees with R's reading (Agrees). C57_formats_partial inherits the conditions of C54 and C39: no comments at risky places, kept nodes steady, operators clear. C57_idempotent_partial, formatting the formatted text again, inherits those of C56: no comments, no listed functions, persistent line breaks, a printer with consistent choices; C57_noted_partial: comments that lead statements, no carriage returns in strings."
  },
  {
   "property": "C58",
   "status": "proved",
   "theorems": [
    "Verif.Whole.C58_lossless",
    "Verif.Whole.C58_slots",
    "Verif.Whole.C58_lists",
    "Verif.Whole.C58_no_panic",
    "Verif.Whole.C58_whole",
    "Verif.Whole.C58_fields",
    "Verif.Whole.C58_dots_loop"
   ],
   "note": "C58_lossless, C58_slots, C58_lists and C58_no_panic hold for all trees. C58_whole: any tree of tree-sitter that covers the text. C58_fields: texts that R accepts, under the assumption of C57 on tree-sitter (Agrees), which includes that loop variables are identifiers; C58_dots_loop shows why: for `for (... in x)`, which R accepts, the loop, the list of expressions and the root would be bogus. The list functions of biome_rowan are modelled from their documented behaviour."
  },
  {
   "property": "C59",
   "status": "partial",
   "theorems": [
    "Verif.Whole.C59_file_partial",
    "Verif.Whole.C59_again_partial",
    "Verif.Whole.C59_run_partial",
    "Verif.Whole.C59_second_run_partial",
    "Verif.Whole.C59_noted_partial",
    "Verif.Whole.C59_noted_run_partial"
   ],
   "note": "C59_file_partial (one text: no panic, valid UTF-8, same program) and C59_run_partial (each file of a successful run in which no file is named twice) inherit the conditions of C54 and C39: comments not at risky places, kept code steady, operators clear; absence of panics and the text being valid UTF-8 are unconditional for accepted texts. C59_again_partial and C59_second_run_partial inherit those of C56: no comments, no listed functions, persistent line breaks, a printer with consistent choices; that tree-sitter also accepts the new text is assumed. C59_noted_partial and C59_noted_run_partial extend both to files whose comments lead statements. 1 <= indent width is proved for all configurations, not assumed."
  },
  {
   "property": "C60",
   "status": "partial",
   "theorems": [
    "Verif.Whole.C60_program_partial",
    "Verif.Whole.C60_crlf_left",
    "Verif.Whole.C60_skip_file_cut",
    "Verif.Whole.C60_comment_swallows"
   ],
   "note": "Texts with Unix line ends; comments in the selection not at risky places, as in C54, and the next statement on another line if there are comments; code kept as it is must be steady, as in C54. The property is false in three cases, which are theorems: `C60_comment_swallows` (a comment moved to the end of the selected statement swallows a statement after `;`), `C60_skip_file_cut` (if the selection starts with the first statement of a file with `# fmt: skip file`, a character of the code is deleted, since the printed text has no final line feed), `C60_crlf_left` (with `line-ending = \"crlf\"` a carriage return is left behind by every range edit)."
  },
  {
   "property": "C61",
   "status": "proved",
   "theorems": [
    "Verif.Format.C61_arguments",
    "Verif.Format.C61_parameters",
    "Verif.Format.C61_chain",
    "Verif.Format.C61_assignment"
   ],
   "note": "C61_arguments (the last argument, if it may contain line breaks, must not end with the operand of a unary operator that has comments; omitted arguments have no comments), C61_parameters, C61_chain: for every layout in the sense of `Typesets`, which adds to `Prints` that groups printed on one line contain no line breaks and that all variants of a best-fitting element but the last are printed flat. C61_assignment: for every layout. Every file has such layouts (typesets_fmtRoot)."
  },
  {
   "property": "C62",
   "status": "proved",
   "theorems": [
    "Verif.Format.C62_spaces"
   ],
   "note": "C62_spaces: what is printed for the expression either contains line breaks outside of string literals or is exactly Expr.inline (Spec/Inline), which does not look at trivia. For every layout in the sense of `Prints`. Expressions with comments and arguments of tables are not covered."
  },
  {
   "property": "C63",
   "status": "partial",
   "theorems": [
    "Verif.Whole.C63_blanks",
    "Verif.Whole.C63_file_partial"
   ],
   "note": "C63_blanks: for any two trees that agree up to white space (`Respaced`), the comments are attached alike, the documents of the formatter are equal, and so is the printed text, for all options, printers and indentation units; the whole model of placement and rules is covered. C63_file_partial: for texts and the whole `format_source` pipeline, if both texts have the same parts (`SameMarks`: tokens, comments, line breaks, semicolons as R reads them). Partial: texts that R and tree-sitter read in the same way (Accepts), without carriage returns in strings, no skip or table directives or functions listed in the settings."
  },
  {
   "property": "C64",
   "status": "proved",
   "theorems": [
    "Verif.Lsp.C64_only_offered",
    "Verif.Lsp.C64_asked",
    "Verif.Lsp.C64_registered",
    "Verif.Lsp.C64_encoding"
   ],
   "note": "C64_only_offered: all messages of all runs; C64_asked: open documents; C64_registered: what is registered, and that it covers what is asked for; C64_encoding: negotiated encoding. Pushed settings (air/syncFileSettings) are not a standard capability; C43 is about them."
  },
  {
   "property": "C65",
   "status": "partial",
   "theorems": [
    "Verif.Format.C65_statements_partial",
    "Verif.Format.C65_block_partial"
   ],
   "note": "For the statements of the file (C65_statements_partial) and of every block in it (C65_block_partial, which also says exactly which comments enter a block from outside: those between its head and its brace, those around else). Under C37's hypothesis on places where comments get lost or doubled (`Spared`); in blocks, for files without skip and table directives and trees that R's grammar allows. Comments inside of a statement are shown to stay inside, up to their order; the blocks are found in the output one by one. `{{ }}` is not counted as blocks."
  },
  {
   "property": "C66",
   "status": "proved",
   "theorems": [
    "Verif.Editor.C66_untrusted",
    "Verif.Editor.C66_choice",
    "Verif.Editor.C66_running"
   ],
   "note": "C66_untrusted, C66_choice: one resolution; C66_running: all servers and the path used by the commands, over all sequences of operations and changed settings. That PATH lookup (`which`) and existence of files are what they are at the time is a parameter."
  },
  {
   "property": "C67",
   "status": "partial",
   "theorems": [
    "Verif.Editor.C67_consistent",
    "Verif.Editor.C67_one_server",
    "Verif.Editor.C67_operations",
    "Verif.Editor.C67_failing_stop"
   ],
   "note": "C67_consistent and C67_operations hold for all runs. C67_one_server if no client fails to stop; C67_failing_stop: otherwise two servers can run at the same time. Operations run one after the other (their queue is p-queue with concurrency 1, an assumption). A client that fails to start is assumed to leave no server."
  },
  {
   "property": "C68",
   "status": "partial",
   "theorems": [
    "Verif.Editor.C68_mirrors",
    "Verif.Editor.C68_heard",
    "Verif.Editor.C68_setting_ignored"
   ],
   "note": "C68_mirrors: all runs. The part about the setting fails (C68_setting_ignored): the declared setting is never read, since the code reads the undeclared `air.addExecutableToPath`."
  },
  {
   "property": "C69",
   "status": "partial",
   "theorems": [
    "Verif.Editor.C69_rbuildignore",
    "Verif.Editor.C69_keeps",
    "Verif.Editor.C69_initialized",
    "Verif.Editor.C69_twice_partial",
    "Verif.Editor.C69_carriage_return"
   ],
   "note": "C69_rbuildignore, C69_keeps, C69_initialized for all files. C69_twice_partial: nothing changes the second time unless the last line of an `.Rbuildignore` with line feeds ends with a lone carriage return, where it fails (C69_carriage_return)."
  },
  {
   "property": "C70",
   "status": "partial",
   "theorems": [
    "Verif.Editor.C70_format_saved",
    "Verif.Editor.C70_initialize_saved",
    "Verif.Editor.C70_refused",
    "Verif.Editor.C70_saved",
    "Verif.Editor.C70_asked",
    "Verif.Editor.C70_sibling",
    "Verif.Editor.C70_select_partial",
    "Verif.Editor.C70_same_name"
   ],
   "note": "C70_format_saved, C70_initialize_saved, C70_refused for all documents. C70_sibling: documents of a folder whose path begins with the same characters are saved too. C70_select_partial: the picked folder is used if the names of folders are different and not empty; C70_same_name: otherwise the first one with the name is used."
  },
  {
   "property": "C71",
   "status": "proved",
   "theorems": [
    "Verif.Editor.C71_root"
   ],
   "note": "C71_root, for all lists of folders (lengths of paths; which one is used among equals is not claimed)."
  },
  {
   "property": "C72",
   "status": "partial",
   "theorems": [
    "Verif.Editor.C72_length",
    "Verif.Editor.C72_never_by_language"
   ],
   "note": "C72_length holds. The claim on languages fails for all documents and requests (C72_never_by_language): `document.uri === uri` compares a new object with those of the documents, so the server gets the values without the language. Assumption: `vscode.Uri.parse` returns a new object."
  },
  {
   "property": "C73",
   "status": "partial",
   "theorems": [
    "Verif.Editor.C73_active",
    "Verif.Editor.C73_untouched",
    "Verif.Editor.C73_windows"
   ],
   "note": "C73_active, C73_untouched: all sequences; the hypothesis is that `normalizePath` of the sent URL is the path of the document. C73_windows: on Windows this never holds, and nothing is ever applied. The user does not change the options of the editor in between."
  },
  {
   "property": "C74",
   "status": "partial",
   "theorems": [
    "Verif.Editor.C74_levels_partial",
    "Verif.Editor.C74_warning"
   ],
   "note": "C74_levels_partial for all offered levels but `warning`, for which it fails (C74_warning): the server takes over none of its global settings."
  },
  {
   "property": "C75",
   "status": "proved",
   "theorems": [
    "Verif.Zed.C75_preferred",
    "Verif.Zed.C75_downloaded",
    "Verif.Zed.C75_effects",
    "Verif.Zed.C75_inside",
    "Verif.Zed.C75_assets",
    "Verif.Zed.C75_session"
   ],
   "note": "C75_preferred, C75_downloaded, C75_effects, C75_inside, C75_assets for one start; C75_session for sequences of starts. Failures of the network, of listing the directory and of the download are covered; that removing a directory may fail is ignored by the code as well."
  },
  {
   "property": "C76",
   "status": "partial",
   "theorems": [
    "Verif.Logging.C76_decides",
    "Verif.Logging.C76_level",
    "Verif.Logging.C76_severity",
    "Verif.Logging.C76_source",
    "Verif.Logging.C76_ours_partial",
    "Verif.Logging.C76_dependency",
    "Verif.Logging.C76_prefix",
    "Verif.Logging.C76_part",
    "Verif.Logging.C76_reload",
    "Verif.Logging.C76_cli"
   ],
   "note": "C76_decides: the directive that applies, for all directives; C76_level, C76_cli: without levels for dependencies; C76_ours_partial: levels for dependencies do not matter for air's crates unless one is for a part of the crate, where it fails (C76_part); C76_dependency: others only log on request; C76_reload: all sequences of changes. C76_prefix: dependencies whose names begin with the name of an air crate (`lsp_types`) log without being asked to. The filter of tracing_subscriber is transcribed from its published source, without directives for fields; the parser of directives is a parameter."
  },
  {
   "property": "C77",
   "status": "proved",
   "theorems": [
    "Verif.Transport.C77_order",
    "Verif.Transport.C77_results",
    "Verif.Transport.C77_once",
    "Verif.Transport.C77_complete",
    "Verif.Transport.C77_settles",
    "Verif.Transport.C77_phases",
    "Verif.Transport.C77_accepts",
    "Verif.Transport.C77_errors",
    "Verif.Transport.C77_panics",
    "Verif.Transport.C77_survives",
    "Verif.Transport.C77_crash_spreads"
   ],
   "note": "For the assumptions on tower-lsp in DESIGN.md. C77_order is the refinement to the sequential main loop (`Runs`), C77_results the replies, C77_once and C77_complete exactly one reply, C77_settles a decreasing measure, C77_phases and C77_accepts the phases of a session, C77_errors what error replies mean, C77_panics and C77_survives the absence of panics; C77_crash_spreads shows that the hypothesis on the main loop is needed."
  },
  {
   "property": "C78",
   "status": "partial",
   "theorems": [
    "Verif.Format.C78_seats",
    "Verif.Format.C78_kept",
    "Verif.Format.C78_reordered",
    "Verif.Whole.C78_text"
   ],
   "note": "All argument and parameter lists of a program: which comments lead and trail every argument after attachment, exactly (C78_seats), hence that comments between two arguments go to one of the two and comments inside stay inside (C78_kept). C78_text says the same of every source text that R reads (with the agreement of tree-sitter and R as in C57). C78_reordered is a program where two comments between the same arguments change their order. Partial: about the attachment of comments (Comments::from_node with the placement rules), not yet about the printed text, for which C37 says that attached comments are printed once."
  },
  {
   "property": "C79",
   "status": "partial",
   "theorems": [
    "Verif.Codec.C79_arrive",
    "Verif.Codec.C79_roundtrip",
    "Verif.Codec.C79_recovers",
    "Verif.Codec.C79_other_type",
    "Verif.Codec.C79_reserved",
    "Verif.Codec.C79_stuck_utf8",
    "Verif.Codec.C79_stuck_missing",
    "Verif.Codec.C79_empty_delays",
    "Verif.Codec.C79_lower_case"
   ],
   "note": "The codec of the test client, a copy of the codec of tower-lsp. C79_arrive: after every piece exactly the completely arrived messages have been returned, for all streams and all pieces, for any client's headers; C79_roundtrip: what encode writes; C79_reserved: the reserved space is exact. C79_recovers: an invalid length is reported once; C79_other_type: so is a message of another character set, and the messages behind it are found again. The part about malformed messages fails: a body that is not UTF-8 is never taken from the buffer, so every later call returns the same error (C79_stuck_utf8); headers without a length are reported again and again until `Content-Length` arrives (C79_stuck_missing); after an empty message the messages behind it wait for more bytes (C79_empty_delays); names of headers in lower case are not understood (C79_lower_case). httparse is transcribed from its published source; JSON and the test for UTF-8 are parameters."
  },
  {
   "property": "C80",
   "status": "partial",
   "theorems": [
    "Verif.Paths.C80_normal",
    "Verif.Paths.C80_shown",
    "Verif.Paths.C80_same_partial",
    "Verif.Paths.C80_link",
    "Verif.Paths.C80_missing"
   ],
   "note": "C80_normal and C80_shown: all paths and directories. C80_same_partial: the same file as for the operating system, for all file systems, if no `..` comes after a symbolic link and the operating system finds the file. False otherwise: C80_link (`l/../x` behind a symbolic link `l` is another file), C80_missing (paths through missing directories or through files are errors for the operating system, but not for air). Unix only; `path_absolutize` and `Path::components` are transcribed."
  },
  {
   "property": "C81",
   "status": "proved",
   "theorems": [
    "Verif.Ungrammar.C81_reads",
    "Verif.Ungrammar.C81_only",
    "Verif.Ungrammar.C81_tokens",
    "Verif.Ungrammar.C81_text",
    "Verif.Ungrammar.C81_unambiguous"
   ],
   "note": "C81_tokens: a text has the given tokens if and only if it is built from them, gaps and comments. C81_reads / C81_only: the parser accepts exactly the tokens of good files and returns their grammar; C81_text puts both together for `from_str`; C81_unambiguous: one reading. Errors are modelled without their messages and locations."
  },
  {
   "property": "C82",
   "status": "partial",
   "theorems": [
    "Verif.Ungrammar.C82_casts",
    "Verif.Ungrammar.C82_accepts",
    "Verif.Ungrammar.C82_required_partial",
    "Verif.Ungrammar.C82_shadowed",
    "Verif.Ungrammar.C82_air",
    "Verif.Ungrammar.C82_classes",
    "Verif.Ungrammar.C82_grammar",
    "Verif.Ungrammar.C82_source"
   ],
   "note": "C82_casts: can_cast of the generated code is membership by the grammar. C82_accepts: children that a rule describes are accepted, none lost or moved. C82_required_partial: required parts are found, if nothing fits both an optional field and another that may come next, and the only alternatives are labelled alternatives of tokens; C82_shadowed shows that the first is needed (A = B? B). For R nothing is missing: C82_source: the rules are those read from the text of r.ungram; C82_air: the factory of air (Model/Factory, from syntax_factory.rs) is the generator's output for these; C82_classes: so are the classes of kinds; C82_grammar: children as in r.ungram make a node of the kind with all required parts. Not modelled: factories of nodes with parts in any order (r.ungram has none), spellings of kinds and methods."
  },
  {
   "property": "C83",
   "status": "partial",
   "theorems": [
    "Verif.Ungrammar.C83_built",
    "Verif.Ungrammar.C83_names",
    "Verif.Ungrammar.C83_set",
    "Verif.Ungrammar.C83_list",
    "Verif.Ungrammar.C83_list_lost",
    "Verif.Ungrammar.C83_generated",
    "Verif.Ungrammar.C83_typed",
    "Verif.Ungrammar.C83_required"
   ],
   "note": "C83_built, C83_names, C83_set, C83_typed, C83_required, C83_generated. The last part of the statement is false: C83_list: a list has all items and separators if and only if there are as many separators as items, or one less; C83_list_lost: from two items and no separator the second item is lost without an error (so is a separator, if there are two more of them than items). The functions of support, new_detached and splice_slots are biome_rowan's, assumed as documented; with_ methods are for nodes with as many slots as accessors."
  },
  {
   "property": "C84",
   "status": "proved",
   "theorems": [
    "Verif.Settings.C84_exact",
    "Verif.Settings.C84_accepted",
    "Verif.Settings.C84_float"
   ],
   "note": "C84_exact (both directions at once, with the exceptions stated exactly), C84_accepted, C84_float (line-width = 80.0 is valid for the schema and rejected). The meaning of the keywords is that of JSON Schema 2020-12, format is an annotation; what serde accepts is as in C14."
  },
  {
   "property": "C85",
   "status": "partial",
   "theorems": [
    "Verif.Syntax.C85_numbers",
    "Verif.Syntax.C85_roundtrip",
    "Verif.Syntax.C85_trivia",
    "Verif.Syntax.C85_bogus",
    "Verif.Syntax.C85_bogus_class_partial",
    "Verif.Syntax.C85_bogus_call",
    "Verif.Syntax.C85_keywords",
    "Verif.Syntax.C85_punct",
    "Verif.Syntax.C85_grammar",
    "Verif.Syntax.C85_lists",
    "Verif.Syntax.C85_literals"
   ],
   "note": "C85_numbers, C85_roundtrip, C85_trivia, C85_bogus, C85_keywords, C85_punct, C85_grammar, C85_lists, C85_literals. The last part of the statement is false: C85_bogus_call: the bogus version of a call is R_BOGUS, which no place for an expression takes; C85_bogus_class_partial says for which expressions it holds (values and operations). The text of R_STRING_VALUE, string value, is not a name of the grammar."
  },
  {
   "property": "C86",
   "status": "partial",
   "theorems": [
    "Verif.Syntax.C86_order_partial",
    "Verif.Syntax.C86_missing",
    "Verif.Syntax.C86_equal"
   ],
   "note": "C86_order_partial: right for all pairs of operators with a strength other than =. False in two places: C86_missing: != is the one binary operator without a strength; C86_equal: = is stronger than <-, while R reads a <- b = c as (a <- b) = c (in the grammar of R, = is only in the rules above expressions). The function is public and not used by air itself."
  },
  {
   "property": "C87",
   "status": "partial",
   "theorems": [
    "Verif.Ungrammar.C87_numbered",
    "Verif.Ungrammar.C87_keywords",
    "Verif.Ungrammar.C87_air",
    "Verif.Ungrammar.C87_macro_partial",
    "Verif.Ungrammar.C87_hash",
    "Verif.Ungrammar.C87_dispatch",
    "Verif.Ungrammar.C87_arms"
   ],
   "note": "C87_numbered, C87_keywords: all descriptions whose variants differ (otherwise the generated file does not compile). C87_air: the file for R is the generated one. C87_dispatch, C87_arms: map_syntax_node. C87_macro_partial: the arms of T! but that for #, for which it is false: C87_hash: T![#] is for a variant HASH that R does not have. Case::Constant of biome_string_case is simplified."
  },
  {
   "property": "C88",
   "status": "partial",
   "theorems": [
    "Verif.FormatterGen.C88_uncommitted_partial",
    "Verif.FormatterGen.C88_options",
    "Verif.FormatterGen.C88_deleted",
    "Verif.FormatterGen.C88_generated",
    "Verif.FormatterGen.C88_half_staged",
    "Verif.FormatterGen.C88_handwritten",
    "Verif.FormatterGen.C88_staged"
   ],
   "note": "True: existing implementations of nodes other than unions are never changed (C88_handwritten, all grammars and options; a node called RMod is the exception, there is none: C89_air); without options, uncommitted files of nodes, the mod.rs files and all files outside of the directory r except generated.rs are not changed, also if the run panics (C88_uncommitted_partial); all that a run changes is staged (C88_staged). False: files of the directory r that belong to no node are deleted without any check (C88_deleted), generated.rs is overwritten without any check (C88_generated), and with --allow-dirty alone a file whose changes are staged in part passes the check and its staged version is replaced (C88_half_staged); but the command line accepts neither option (C88_options)."
  },
  {
   "property": "C89",
   "status": "proved",
   "theorems": [
    "Verif.FormatterGen.C89_files",
    "Verif.FormatterGen.C89_declared",
    "Verif.FormatterGen.C89_mod",
    "Verif.FormatterGen.C89_again",
    "Verif.FormatterGen.C89_distinct",
    "Verif.FormatterGen.C89_names",
    "Verif.FormatterGen.C89_collision",
    "Verif.FormatterGen.C89_air"
   ],
   "note": "C89_files assumes that the generator sees all files of the directory; C89_again that both runs finish. The exceptions for names are real (C89_collision). Sorting of the declarations in mod.rs is not modelled."
  },
  {
   "property": "C90",
   "status": "partial",
   "theorems": [
    "Verif.TextChanges.C90_single_partial",
    "Verif.TextChanges.C90_several"
   ],
   "note": "True for edits with one replacement (C90_single_partial; inserted text without CR). False for several replacements (C90_several): their positions are those of the text before the edit, but changes are applied one after the other; the function has no caller with several replacements."
  }
 ]
}