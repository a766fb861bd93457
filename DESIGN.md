# Design: a Lean 4 model of Air

Subject: posit-dev/air at the pinned commit in `/repo` (Rust). The code is read as text; nothing is
executed. Every definition of the model cites the file and lines it transcribes. The theorems are about
the model.

## Layout

* `lean/Verif/Model/*.lean` – transcriptions of the code (functions, state machines, relations).
* `lean/Verif/Spec/*.lean` – vocabulary of the properties, written from the documentation and independent
  of the code.
* `lean/Verif/Lemmas/*.lean` – helper lemmas.
* `lean/Verif/Props/*.lean` – the property theorems (`Cnn_...`), a concrete non-trivial instance beside
  each, and counterexamples where a property is false.
* `properties.jsonl` – the English properties; `MANIFEST.json` – property → theorems, with a note on what
  is proved, what is false and what is missing.
* `seeded/LOG.jsonl` – mutation log (bugs seeded into the model in a scratch copy, and which theorems
  noticed them). The build stops at the first modules that fail; the lemmas named there are the first
  proofs that break, the theorems are those whose modules depend on them.

Conventions: theorem names end in `_partial` if the theorem does not cover the whole property; the
manifest note says what is missing. A property that is false for the code has its negation proved with a
concrete witness. Such witnesses are listed under "Disagreements" below.

## Trusted base

* The Lean 4.33.0 kernel and the axioms `propext`, `Classical.choice`, `Quot.sound`. The appendix lists
  the axioms of every property theorem (output of `#print axioms`). No axioms of our own, no `sorry`, no
  `native_decide`/`bv_decide`. Mathlib is not used.
* The reading of the Rust text: that each definition says what the cited lines do.
* The assumptions on external code below.

General conventions of the model:

* Rust panics (`unwrap`, `expect`, `assert!`, `unreachable!`, slice indexing, slicing a `str` off a
  character boundary) are an explicit `none` where a property speaks about them.
* `usize`/`u32` offsets are unbounded `Nat`: texts of 4 GiB and more, where `TextSize` panics, are outside
  of the model. `Vec` and slices are `List`.
* A `String` is a list of characters with byte offsets (`Model/Text`), or a list of bytes where the Rust
  code works on bytes (`Model/LineEnding`, parser, formatter). `Lemmas/Utf8` relates the two.

## What is modelled

| crate / file | model | remarks |
|---|---|---|
| `line_ending` | `LineEnding` | in-place loop with `copy_within` included |
| `aether_lsp_utils/text_edit.rs`, `diff.rs` | `TextEdit`, `Sort` | builder as state machine |
| `aether_lsp_utils/proto` | `LineIndex`, `TextChanges` | UTF-8/16/32; line index cache included |
| `settings`, `workspace/{settings,toml_options}.rs` | `Settings`, `SortedStrings`, `BinarySearch` | from the parsed TOML tree on |
| `workspace/resolve.rs` | `Resolver` | |
| `workspace/{toml,discovery}.rs` | `Discovery` | parallel walk as a transition relation |
| `workspace/file_patterns.rs` | `FilePatterns` | built-in patterns transcribed, user patterns a parameter |
| `workspace/format.rs`, `air/src/commands` | `Cli` | |
| `lsp/{state,workspaces,documents,settings*,handlers*,main_loop,file_patterns}.rs`, `notifications` | `Documents`, `Lsp`, `RangeFormat` | |
| `comments` | `Directive` | |
| `air_r_parser` | `Parser`, `Kinds`, `Preorder` | from the tree-sitter tree on; `Preorder`: the iterator of `treesitter.rs` over a tree-sitter cursor |
| `air_r_syntax` | `Syntax`, `Ast`, `Factory` | `Ast`: typed view of error-free trees; `Factory`: slots and accessors |
| `air_r_factory/generated/syntax_factory.rs` | `Factory` | the slot tests of all kinds |
| `air_r_formatter` (all rules) | `FormatRules`, `Table` | |
| `air_r_formatter/comments.rs` | `Placement` | |
| `workspace/format.rs`, `workspace/settings.rs` (`to_format_options`), `air_r_formatter/{lib,context}.rs` | `Pipeline` | all parts together; tree-sitter and the choice of the layout are parameters |
| `lsp/tower_lsp.rs`, `respond` of `lsp/main_loop.rs` | `Transport` | tasks of requests around the main loop, all interleavings |
| `xtask/codegen` | `Codegen`, `RGrammar` | classification of rules into unions, nodes and lists (`ast.rs`), `can_cast` and the factory of the generated code; `r.ungram` itself |
| generated `nodes.rs`, `nodes_mut.rs`, `node_factory.rs` | `Accessors` | which slot every accessor, mutator and function uses (tables extracted by a script), and what they return; traits, debug output, casts left out |
| `artifacts/air.schema.json` | `Schema` | the keywords that occur, by the documents of JSON Schema 2020-12; `$ref` replaced by its definition |
| `air_r_syntax/src/lib.rs`, `generated/kind.rs` | `KindTables` | numbers, classes and texts of kinds, `OperatorPrecedence`; tables extracted by a script |
| `xtask/codegen`: `generate_syntax_kinds.rs`, `generate_macros.rs`, `r_kinds_src.rs`; generated `macros.rs` | `KindGen` | contents of the generated file as lists of names; `Case::Constant` simplified |
| `xtask/codegen/src/formatter.rs` | `FormatterGen` | which files are written, deleted and staged; texts for nodes and errors of the file system left out |
| `biome_ungrammar` | `Ungrammar` | lexer and parser of grammar files; errors without messages and locations |
| `fs/src/lib.rs` | `Paths` | Unix; `path_absolutize` and `Path::components` transcribed |
| `lsp_test/tower_lsp/codec.rs` | `Codec` | encoder, decoder and `FramedRead` around it; httparse transcribed, JSON a parameter |
| `lsp/logging.rs`, `air/logging.rs` | `Logging` | levels and filters; the filter of `tracing_subscriber` transcribed |
| `editors/code/src` (`binary`, `lsp`, `environment`, `workspace`, `command/*`, `notification/*`, `settings`, `extension`) | `Editor` | the extension for VS Code as state machines over all events |
| `editors/zed/src/lib.rs` | `Zed` | choice, download and removal of executables |

Not modelled: how log messages are written, terminal colours, JSON (de)serialisation, shell completions, the code generators in
`xtask` (except for `ast.rs`, kinds, `map_syntax_node`, the files of the formatter and what the generated factory does), messages, output channels and `viewFile` of the VS Code extension, test utilities, process start-up, the
inside of tower-lsp (except for the framing of messages, see `Codec`), the requests of the server to the client.

## Assumptions on code outside of /repo

Standard library and small crates:
* `slice::sort*` is stable (insertion sort is used as the unique result), `binary_search_by` is
  transcribed, `dedup`, `copy_within` as documented.
* `dissimilar::diff` returns chunks that re-assemble to both texts (hypothesis `DiffOk`).
* `memchr::memmem::Finder::find` returns the first occurrence.
* `git2`: a status is a set of bits, `INDEX_*` for the index; all changed files are listed. `bpaf`: a command without fields takes no
  further arguments.
* `biome_line_index::LineIndex` is transcribed from its published source: only `\n` ends a line.
* `ignore`: the gitignore matcher is a parameter for user patterns and transcribed for the built-in ones
  (all of the form `**/glob` or `**/glob/`). The parallel walker visits every entry below its roots that its
  own filters (hidden, ignored: a parameter) admit, on any number of threads in any interleaving.
* `path_absolutize` (version 3.1.1, the current directory is read once), `std::path::Path::components` for Unix: transcribed.
* `httparse::parse_headers`: transcribed (names of token characters up to `:`, blanks, values up to CR LF or LF without
  blanks at their end, an empty line; no folded lines). `FramedRead` calls `decode` after every read until it returns
  nothing. `memmem::find`, `str::parse::<usize>` as documented; `str::trim` for ASCII.
* `tracing_subscriber::filter::Targets`: transcribed (a sorted set of directives, the first one whose target is a prefix
  decides); `Targets::from_str` is a parameter.
* `toml`/`serde`: the text of a configuration is a parsed tree or an error; deserialisation of derived
  structs (`deny_unknown_fields`, `kebab-case`, untagged values) is modelled.

File system and processes: paths are absolute and normalised component lists (`fs::normalize_path` happens
before, see `Paths` and C80), no symbolic link makes two names of one file, the outcome of writing a file is a function
of its path, writing truncates the file and then writes (crash points in between, C48). Printing to
stdout/stderr does not fail.

Language server: events arrive one after the other in the main loop's channel; answers of the client and
the disk are an arbitrary `Env` per event. A `Url` is a file path, an untitled document or anything else
(`to_file_path` does not look at the scheme). A panic ends the main loop.

tower-lsp (a fork; from the published source): messages are checked in the order in which they arrive, against a state
that `initialize`, its reply, and `shutdown` change; the tasks of messages are polled for the first time in that order and
finish in any order; `$/cancelRequest` drops the task of a pending request and replies with an error; clients do not
cancel `initialize` or `shutdown` and use each request id once. A panic of a task ends the server.

Editors: the operations of the VS Code extension run one after the other (`p-queue` with concurrency 1); a client
that fails to start leaves no server, one that fails to stop may; `vscode.Uri.parse` returns a new object;
`.Rbuildignore` is UTF-8 without a byte order mark; editing settings only changes the given keys; the user does not
change the options of editors in between. Lookups (`which`, existence of files, releases, configuration) are
arbitrary parameters of each step.

tree-sitter and tree-sitter-r: the concrete tree is arbitrary up to `ShapedRoot` (which children nodes can
have) and `Tiled` (leaves are disjoint, in order, and the gaps contain only white space). C32_bom_panics
shows that the second fails for a byte order mark.

biome (`biome_rowan`, `biome_parser`, `biome_formatter`; sources not available, the following is from its
published source and documentation):
* `LosslessTreeSink`/`TreeBuilder`: tokens take the trivia up to their start as leading and the pieces of
  their line after them as trailing trivia; nodes are built by the event stack (`Model/Parser`).
* Trivia queries: `get_lines_before_token` counts the line breaks before the first comment of the leading
  trivia; `has_leading_newline`, `has_comments_direct` as documented.
* Comment builder: the enclosing node of a comment is the innermost node that begins before and ends after
  it (a comment before the first token of a node is outside of every node starting there); the preceding and
  following nodes are the children of the enclosing node before and after the comment, lists being
  transparent and empty arguments counting as nodes. Comments at the beginning and at the end of the file
  are enclosed by the root. Default placement: end of line → trailing of the preceding node, else leading of
  the following, else dangling; own line → leading of the following, else trailing of the preceding, else
  dangling.
* Writing comments: a leading comment is followed by a line break, or by an empty line if two or more line
  breaks follow it; a trailing comment is postponed to the end of the line, or to a line of its own if line
  breaks come before it; dangling comments one per line. Blanks at the end of a comment are trimmed when it
  is written; in the model comments are printed as they are, so "the same comments" means up to such blanks.
* `FormatVerbatimNode` prints the leading comments that end before the node's trimmed range, the trimmed
  source text, and the trailing comments that do not end before its end. The trimmed range of an empty node
  is empty and at the end of the previous token's trailing trivia.
* Documents and printer (`Model/Doc`): the printer may print any group flat unless it is marked as
  expanded, and may choose any variant of a best-fitting element. The real printer prints all variants but the
  last one in flat mode; in the model they are groups, so they may be printed in any mode. Measuring of widths and
  `expand_parent`/propagation are left out; they only restrict the layouts, so everything proved for all
  layouts (`Lays`) holds for the real printer. Spaces at the beginning of a line vanish, a line break on an
  empty line vanishes, an empty line is not repeated, postponed comments are printed before the next line
  break. Simplification: after any token the line counts as non-empty (tokens have non-empty text).
  What is written through `RemoveSoftLinesBuffer` is given up if `will_break` finds an expanded group or a
  line break that is not soft in it. `RemoveSoftLinesBuffer`, `block_indent` with empty content (nothing),
  `join_nodes_with_soft_line` (empty line if two or more line breaks) as documented.
* `format_sub_tree` prints the document of the node, starting at some indentation of whole levels that lines after the
  first one get in addition (C60 holds for every such indentation), and adds or removes nothing else.

R: `Spec/Grammar` follows `?Syntax` and the parts of R's `gram.y` quoted in
`binary_expression.rs:300-334`; `gram.y` itself is not available. Deviation: `a == b == c`, which R rejects,
is read with grouping to the left. Line breaks end an expression at top level and in braces, and are
skipped in parentheses and brackets, after binary operators, `$`, `@`, after `function`, `if`, `for`,
`while`, `repeat`, `else`, and after the `)` of their conditions. It is not assumed that they are skipped
after `::`. `Spec/Lexer` is R's lexer after `?Syntax`, `?NumericConstants`, `?Quotes` and `?Reserved`:
longest match, `]]` is one token exactly if the innermost open bracket is `[[`, bytes above 127 belong to
names. Its deviations from R are listed at the top of the file.

## How the formatter properties are stated

A program is a `Root`: a tree (`Ast`) whose tokens carry their trivia. `Placement` computes which comments
belong to which node. `fmtRoot` gives the document of the file, `Lays` all its layouts, `emit` the printed
instructions (tokens, comments, blanks, line feeds) and `render` the bytes. `seen` are the tokens an R
reader sees, each with whether a line break comes before it; `Fits` says that a sequence of tokens with
line breaks is read as a given tree, and `readFile` (a reader proved complete for the grammar, C39_reader)
finds that tree. So "the program is preserved" is: the tokens of every layout fit the shape of a tree that
`Becomess` the source tree (same tree up to documented braces and exchanged assignment operators).

## Plan per property

| id | model | how it is proved |
|----|-------|------------------|
| C01, C02, C44 | `LineEnding` | loop invariant; result = one-pass replacement |
| C03–C07 | `TextEdit` | induction on edits, invariant of the builder, spec is one left-to-right pass (`Edits`) |
| C08, C45 | `LineIndex` | induction on text |
| C09–C11 | `TextChanges` | refinement to the cache-free fold; relation to the editor's buffer |
| C12, C24, C50 | `Documents`, `Lsp` | invariants over all event histories |
| C13 | `SortedStrings` | binary search correctness |
| C14 | `Settings` | specification of the TOML tree, both directions |
| C15 | `Resolver` | refinement to a finite map with longest-prefix lookup |
| C16, C47 | `Discovery` | invariant over the list of paths |
| C17 | `Discovery` | transition relation over threads: invariant, termination measure, confluence of results |
| C18–C21, C48 | `Cli` | relation `Run`; induction on the list of files; prefixes of writes for crash points |
| C22, C46, C49 | `FilePatterns`, `Discovery` | decision logic over arbitrary matchers |
| C23, C51 | `Lsp.mainLoop` | induction on events; invariant of reachable states |
| C25–C28, C43 | `Lsp` | history invariants, composition with C05/C08/C15/C16 |
| C29 | `RangeFormat` | induction on trees |
| C30 | `Directive` | characterisation of texts |
| C31 | `FormatRules` | induction on trees: printed text of kept nodes; independence of blanks |
| C32–C35 | `Parser` | loop invariants over tokens and gaps, tree induction (`conv`, `leaves`) |
| C36 | `FormatRules`, `Doc` | tree induction: every layout prints the tokens of a `Becomess` tree |
| C37 | `Placement`, `FormatRules` | every comment has one fate (induction on the view), every attached comment is printed once |
| C38 | `FormatRules`, `Doc`, `Placement` | tree induction over layouts: line breaks only where the shape allows them; the conditions on attached comments follow from where comments stand in the source (`Deco.risky`, `Steady`) |
| C39 | `Spec/Grammar` | reader complete for the grammar; exchanging operators keeps the grammar |
| C40 | `Table` | arithmetic over rows |
| C41, C42 | `FormatRules` | tree induction |
| C52 | `Preorder` | refinement of the cursor to the list of visits, invariant over call sequences |
| C53 | `FormatRules`, `Doc` | every layout of the file contains a layout of the part (`Always`); the printed lines of the part by induction on its entries |
| C54 | `FormatRules`, `Doc`, `Spec/Lexer` | which first bytes may follow a token (`Flow`), by induction on the tree; the lexer inverts the printer on tokens that stay apart (`lexText_glued`); the same facts about the source follow from its own lexing (`spelled_tokens`) |
| C55 | `FormatRules`, `Doc`, `Placement`, `Spec/Neat` | without source text and tables all white space comes from the printer (`free_fmt`); the printer knows what it printed last (`Knows`), an invariant of `printEl`; statements start with text (`fmt_begins`), so the raw line feed for a second blank line is never followed by another; comments are attached to statements (`attach_ann`) |
| C56 | `FormatRules`, `Doc`, `Spec/Stable` | follow a layout and the tokens that are read in it together through the tree (`Step`, `core_expr`): build the tree that is read, show that it prints the layout again and no others than before (`Again`); R's grammar has no other tree for these tokens (`readFile_gram`, `same_exprs`); comments that lead statements: replace each by a statement with a long name (`voiced`), show that layouts correspond token for comment (`SimL`, `sim_exprs`), follow the file without comments, turn the long names of the tree that is read back into comments (`said_exprs`), show that attaching comments to it changes nothing (`put_root`), and use C63 for the blanks (`Lemmas/Noted*`) |
| C57 | `Parser`, `Ast`, `FormatRules`, `Doc`, `Spec/Lexer`, `Spec/Grammar` | a tree of tree-sitter is the tree of a program (`Written`), by recursion on programs; the events of the parser build `fileTree` of a program with the same tokens (`Lemmas/Written`); R's reader is sound (`readFile_sound`), hence its result meets the conditions of C39; R's lexer finds the tokens of the tree because the trivia that the parser attaches contain comments up to their line ends only (`Lemmas/LexParsed`, `Lemmas/Parsed`); separators between statements give `Lists` (`Lemmas/ParsedLists`); carriage returns only stand in front of line feeds, and the formatter removes or normalises each of them (`Lemmas/ParserCrlf`, `lf`); two ways to cut a text into the same tokens are the same, which gives `Rereads` for the formatted text (`Lemmas/Reread`) |
| C58 | `Factory`, `Parser`, `Ast` | greedy filling finds a distribution if there is one (leaving out the first child keeps the others distributable); alternation by induction with the parity; started nodes are of known kinds (invariant of walk and sink); for programs, by recursion, the slots of each node and what the accessors return (`Lemmas/Factory`), tokens of what the accessors return by the induction principle of `castExpr` |
| C59 | `Pipeline`, `Cli`, `Discovery`, `Settings`, all of C57 | every printed text is a token, comment or blank of the file or a brace or operator of a rule (`Lemmas/Pieces`, recursion over the rules); a property of texts that is closed under concatenation therefore holds of the printed file: no carriage returns, valid UTF-8 (`Lemmas/Bytes`); line ends are then added and removed again without loss, and inferring them from the new text gives the same ones or there are none; C57 for the text, C20/C21 for the run; configured indent widths are between 1 and 24 |
| C60 | `RangeFormat`, `Pipeline.formatSub`, all of C57 and C29 | the selected statements are a gap in the program (`Spec/Contexts`, `Lemmas/ContextTree`); the shapes of the tokens before and after the gap do not depend on what is in it (`Lemmas/Contexts`); the printed statements are read at any place by the simulation of C38 (`reads_sub`), end with a line feed, and begin and end with the same kind of bytes as before, so that the text lexes (`Lemmas/Splice`); ranges are lengths of rendered parts (`Lemmas/SpliceText`, `SpliceRange`) |
| C61 | `FormatRules`, `Doc`, `Spec/Layout` | every layout of the file contains a layout of the part, together with the mode it is printed in (`Always.typesets`); a part without line breaks is printed without line breaks (`run_oneLine`); the last text of an argument is followed by postponed comments only (`DHalts`, recursion over the rules) |
| C62 | `FormatRules`, `Doc`, `Spec/Inline` | all layouts of a rule without line breaks are the same elements (`Lined`, `Lemmas/Inline` to `InlineAll`, recursion over the rules); printing them prints the line (`Chunk`); a line break in a layout is printed (`run_breaks`) |
| C63 | `Placement`, `FormatRules`, `Parser`, `Pipeline`, `Spec/Respaced` | thinning the trivia of all tokens changes nothing the rules and the placement of comments look at (`Still`, `decos_map`, `attach_thin`); a tree is determined by its shape and its tokens (`fill_tokens`); the parts of a text (`skim`, a reader independent of the model of the parser) determine the trivia of the tokens up to white space (`same_file`) |
| C64 | `Lsp` | what one event sends and what becomes of the capabilities (`handleEvent_outs`), then induction over runs |
| C65 | `Format`, `Placement` | what the comments between two statements decorate (`stations_decos`) and where they are attached (`station_cares`), comments inside a statement attach inside (`inside_target`); then one run of the printer per statement (`stmt_run`), induction over the statements (`listing_comments`). Blocks: what can be attached into braces from outside (`outside`, `block_cared`), which ways comments take (`route`), the comments of each head (`for_ent`, …, `else_ent`), recursion over the blocks of the file (`found`) |
| C66, C67, C68 | `Editor` | invariants over all sequences of operations and changed settings (`runs_induct`): state, client and path agree (`Agrees`), one server (`Lone`), what terminals get (`Mirrors`) |
| C69 | `Editor` | lines of a text described without splitting (`LineOf`); splitting at LF or CR LF finds exactly these; appending complete lines only adds lines |
| C70, C71 | `Editor` | documents in a folder described by components (`Pending`); minimum over a list by induction |
| C72 | `Editor` | fresh objects equal none of the documents', induction over the items |
| C73 | `Editor` | invariant: the active editor has the options of what is stored for its file (`Current`) |
| C74 | `Editor`, `Lsp` | both lists of levels |
| C75 | `Zed` | case analysis of one start, induction over starts |
| C76 | `Logging` | the sorted set of directives finds the last one of those with the longest matching target (`Wins`), by induction over the directives; two matching targets of the same length are equal |
| C77 | `Transport`, `Lsp` | one invariant of all reachable states (`Inv`, `Lemmas/TransportStep`): what was accepted is what is handled, in the channel, or queued, in order; requests are partitioned; the replies are among those of the sequential run |
| C78 | `Placement` | the comments around one argument (`gap_before`, `gap_after`, `gap_hole`), put together as `Pieces`; induction over the arguments (`items_seated`), nothing comes in from outside of the list (`outside_list`), recursion over all lists of the file (`alike`) |
| C79 | `Codec` | headers are read when complete (`parse_block`) and not before (`parse_prefix`); invariant `Holds` of the decoder and its buffer, induction over the messages (`drain`) and over the pieces (`feeds`) |
| C80 | `Paths` | all parts of a path are applied to the names so far (`normalize_parts`); these lead from the root to where the operating system is, as long as there are no links (`straight_leads`), and then only go down (`downward`) |
| C81 | `Ungrammar` | written rules are syntax trees with their parentheses; the parser reads each (`whole_parse`) and reads nothing else (`reads`), numbers only grow (`rule_grows`), so that each rule still means the same in the end (`rule_resolve`) |
| C82 | `Codegen` | `Lang` says which children a rule describes; a description embeds into the fields (`rule_embeds`), and filling the slots from left to right finds an embedding whenever there is one (`fill_complete`); for R, the tests of all slots are compared for all kinds by evaluation, the rest is generic (`fill_agrees`, `separated_agrees`) |
| C83 | `Accessors` | what the tables have to fulfil is a decidable condition on each kind, checked for all kinds (`neat`, `generated_all`, `suit_all`); the theorems about contents follow from these (`get_fits`, `get_suits`) and from C58, C82 |
| C84 | `Schema` | one equivalence for each option between `ValidOption` (of C14) and the schema of the option (`option_valid`), joined over all entries of the table |
| C85 | `KindTables` | finite tables: each condition is evaluated on all kinds (`every`); numbers and words are arbitrary |
| C86 | `KindTables` | all pairs of kinds, against the strengths of the specification of R's grammar (`binOp`) |
| C87 | `KindGen` | general facts on lists without duplicates; the file for R by evaluation of the generator on its description |
| C88 | `FormatterGen` | one lemma on which files the loop over nodes keeps (`nodes_kept`), also at a panic; the rest from the closed form of the final tree (`generate_ok`) |
| C89 | `FormatterGen` | the closed form of the final tree; the second run is compared with it file by file; `snake` has an inverse |
| C90 | `DocEdit` | positions of offsets and back (`position_size`, `textRange_posOf`) |

## Disagreements between properties and code

Each is a theorem about a concrete input; the note in `MANIFEST.json` says what remains true.

Text and editor protocol
* C04_duplicate_calls_conflict: two identical non-empty replacements given to the edit builder yield an
  invalid edit.
* C06_union_not_symmetric: whether two edits can be united depends on their order if ranges share a start.
* C09_lone_cr_desync: a lone CR in the editor's buffer counts as a line end for the editor only.
* C10_same_position_reversed, C10_insert_lost: edits sharing a start are applied in reverse order, or lost.
* C12_crlf_remains: a change that completes a CR LF pair leaves a CR in the server's text.
* C82_shadowed: for a rule `A = B? B`, the generated factory puts a single `B` into the optional field, and the required one is missing.
  (r.ungram has no such rule: C82_grammar.)
* C83_list_lost: `r_argument_list` and `r_parameter_list` lose items if there are too few separators.
* C84_float: `line-width = 80.0` is valid for the published schema, and air rejects the file.
* C85_bogus_call: the bogus version of a call, `R_BOGUS`, cannot stand for an expression.
* C86_missing: `!=` has no strength. C86_equal: `=` is stronger than `<-`, against R.
* C87_hash: the generated macro `T!` has an arm `#` for a kind that does not exist.
* C90_several: `doc_edit_vec` for two replacements leads to another text than the edit.
* C88_deleted: the generator of the formatter deletes files of `src/r` that belong to no node, committed or not. C88_generated: it
  overwrites `generated.rs`, committed or not. C88_half_staged: with `--allow-dirty` it replaces staged versions.
  C88_options: the command line takes none of the options that the messages recommend.
* C44_first_detected_false: in a mixed text starting with LF, CR LF wins, against the documentation.
* C45_column_not_clamped: a column past the end of its line reaches into the next line.

Files and settings
* C46_comma_extension_included: the default include pattern `[R,r]` also matches the extension `,`.
* C47_other_paths_matter: settings of a file depend on other paths given on the command line.
* C48_contents_lost: the file being written is empty if the process dies.
* C49_exception_differs: a file excluded below a directory by an exception pattern is formatted when named.
* C49_nested_differs: the same for a file in an excluded directory below which there is another configuration.

Server
* C24_old_version: an older version number ends the server.
* C26_nested_ignored, C26_parent_change_missed: configurations below a workspace folder are ignored, changes
  above it are missed.
* C28_crlf_doubled, C28_stale_line_ends: `line-ending = "crlf"` on a CR LF document doubles line ends.
* C43_deletion_missed: no notification is sent when a configuration is deleted.
* C51_untitled_crash, C51_crashes: an untitled document with a path outside of the folder ends the server.
* C29_selection_to_end_ignored, C29_cursor_at_line_end: selections that are silently not formatted.
* C78_reordered: a comment on a line of its own before a comma is printed after a comment behind the comma (the first
  leads the next argument, the second trails the one before).
* C79_stuck_utf8, C79_stuck_missing, C79_empty_delays, C79_lower_case: the codec of the test client (and of tower-lsp) keeps
  returning the same error for a body that is not UTF-8, and for headers without a length until `Content-Length` arrives; an
  empty message holds up the messages behind it; `content-length` is not understood.
* C80_link, C80_missing: `..` is removed together with the name before it, without looking at the file system; behind a symbolic
  link another file is formatted, and paths through missing directories are accepted.
* C77_crash_spreads: after a panic of the main loop the server waits for the next message and then panics as well; the
  request is not answered.
* C76_prefix, C76_part: dependencies like `lsp_types`, whose names begin with the name of an air crate, log as if they
  belonged to air; levels for dependencies like `lsp::main_loop=off` change what air logs.

Parser and formatter
* C32_bom_panics: a file starting with a byte order mark panics.
* C37_else_comment_lost: `# fmt: skip` on the first expression of a block loses a comment before `else`.
* C37_hole_comment_lost: a comment on a skipped empty argument is lost.
* C37_table_comment_twice: a comment between callee and arguments is printed twice if the table is given up.
* C37_table_comment_swallows: a comment inside of a table cell swallows the rest of the row.
* C38_unary_comment_splits, C38_callee_comment_splits, C38_skipped_call_splits: a comment after a unary
  operator, after a callee, or inside of a skipped call makes air write a line break that ends the
  expression.
* C39_target_clash, C39_skip_clash: exchanging operators in `a <- b = c`, or in a chain that is partly kept
  as written, changes how R reads the program.
* C40_comment_misaligned: a comment before a number breaks the alignment of a table.
* C41_multiline_if_not_braced, C41_multiline_function_not_braced: the documentation promises braces if any
  part spans several lines.
* C53_titled_removed, C53_table_removed: persistent line breaks that are removed, in calls like
  `test_that("title", { … })` and inside of table cells.
* C56_blank_first_unstable: without persistent line breaks, an empty line before the first argument makes
  air put the arguments on lines of their own, but the empty line itself is not printed, so that a second
  run may put them on one line again.
* Names in backticks that contain a line end are printed as they are (strings are not). If the line ends of the
  file are CR LF, the printer writes CR LF for the line feed of such a name and keeps the carriage return, so
  that each run adds one. `LineEnds` excludes this in C57.
* C55_comments_only_indented: the comments of a file without statements are indented by one level. (This
  follows from the default rule for dangling comments in `lib.rs:239-250`, which `root.rs` does not
  override, and the documented meaning of `with_soft_block_indent`; no test in the repository covers it.)
* C60_comment_swallows: range formatting of a statement that is followed by `;` and another statement: a comment in it
  that is moved to its end (`a$ # c`, `b;d`) makes a comment of the rest of the line.
* C60_skip_file_cut: range formatting removes the last character of the printed text, taking it for the line feed
  that the root prints (`format_text.pop()`, handlers_format.rs:148-150). A root with `# fmt: skip file` (or
  "Generated by") before its first statement is printed as it is, without one, so that a character of the code is
  deleted.
* C60_crlf_left: with `line-ending = "crlf"` the printed text ends with CR LF, and only the LF is removed.

Editor extensions
* C67_failing_stop: if a client fails to stop, the next start runs a second server, and a restart leaves none.
* C68_setting_ignored: the setting `air.addExecutableToTerminalPath` is declared in `package.json`, but the code reads
  `air.addExecutableToPath`, so that it has no effect.
* C69_carriage_return: an `.Rbuildignore` whose last line ends with a lone CR gets the lines again at each run (the
  line feed that is added makes it a CR LF file).
* C70_sibling: formatting `/r/pkg` also saves documents in `/r/pkg2`.
* C70_same_name: of two folders with the same name the first one is formatted, whichever is picked.
* C72_never_by_language: the middleware that looks up language-specific configuration never does so.
* C73_windows: on Windows the settings of the server never reach an editor.
* C74_warning: the offered log level `warning` is unknown to the server, which then ignores all its global settings.

Deliberate, documented in the code: directives on table cells and on the inner braces of `{{ x }}` do
nothing (C31 excludes both).

## Not proved

* That the printer of biome_formatter chooses consistently (`Consistent` is a condition of
  C56_idempotent_partial; C56_again_partial does without). `Prints` is also narrower than `Lays` in one
  point: where soft line breaks have been removed, content for expanded groups is taken to be removed as
  well (`RemoveSoftLinesBuffer` of biome_formatter).
* That the printer of biome_formatter never prints a group with a line break on one line, and prints all variants
  of a best-fitting element but the last one as if on one line (`Typesets` in `Spec/Layout`, used by C61 only;
  `Printer::print_group`, `print_best_fitting`). The other properties hold without this.
* Widths: which layout the printer chooses, hence that lines fit the line width if possible.
* That tree-sitter-r builds the tree of the program that R reads (`Agrees`, the assumption of C57 to C60), and takes
  only identifiers as variables of `for` loops (R also takes `...`).
* That `RawNodeSlots`, `make_node_list_syntax`, `make_separated_list_syntax` and the `support` functions of
  `biome_rowan` do what their documentation says (C58).

## Appendix: axioms

<!-- axioms -->
`propext`, `Classical.choice`, `Quot.sound`:
C01_normalize_ref, C01_normalize_spec, C01_removes_exactly, C01_residual_crlf_iff, C01_utf8_safe, C02_auto_crlf_iff, C02_no_crlf_unchanged, C02_normalize_toCrlf, C02_setting, C02_toCrlf_normalize_iff, C04_build_panics_iff, C04_duplicate_calls_conflict, C04_early, C05_diff_correct, C06_union_succeeds_iff, C06_union_success, C07_apply_to_offset, C07_not_invalidated, C08_offset_to_position, C08_order, C08_position_to_offset, C08_roundtrip, C09_index_reuse, C09_lone_cr_desync, C09_sequential, C09_tracks_editor, C10_insert_lost, C10_same_position_reversed, C10_simultaneous_partial, C11_edits_reach_formatted, C11_mixed, C11_range_edit, C12_crlf_remains, C12_lf_only_partial, C13_contains_iff, C13_display, C13_display_injective, C13_merge_iff, C13_order_irrelevant, C14_accepted_iff, C14_documented_settings, C14_empty_is_default, C15_fallback, C15_matches, C15_resolve_closest, C15_returned_values, C16_discovered, C16_find, C16_nearest_settings, C16_order_irrelevant, C17_errors, C17_no_duplicates, C17_no_panic, C17_result_exists, C17_schedule_irrelevant, C17_selected, C17_terminates, C18_not_selected, C18_stdin_like_file, C19_check_status, C19_invalid_invocation, C19_some_outcome, C19_write_status, C19_write_status_distinct, C20_check_predicts_write, C20_run_formats, C21_converges, C21_second_run, C22_agree, C23_all_answered, C23_failure, C23_loop, C24_available, C24_editor, C24_isolated, C24_old_version, C24_store, C24_unknown, C24_version, C25_attribution, C25_open, C25_wrong_length, C26_nearest_partial, C26_nested_ignored, C26_other_urls, C26_parent_change_missed, C26_server, C26_settings, C27_options, C27_toml_wins, C28_crlf_doubled, C28_formatting, C28_line_ends, C28_not_open, C28_stale_line_ends, C29_edit, C29_lines, C29_range, C30_directive, C30_exclusive, C30_generated, C31_only, C32_lossless, C33_trivia, C34_alternating, C34_positions, C35_balanced, C36_rewriting, C37_attached_once, C37_else_comment_lost, C37_hole_comment_lost, C37_once_partial, C37_once_unskipped_partial, C37_source_no_token_in_comment_partial, C37_table_comment_swallows, C37_table_comment_twice, C38_callee_comment_splits, C38_plain_partial, C38_reads_calm_partial, C38_reads_partial, C38_skipped_call_splits, C38_source_partial, C38_unary_comment_splits, C39_grammar, C39_preserve, C39_reader, C39_reads_partial, C39_skip_clash, C39_source_partial, C39_target_clash, C39_twice_partial, C40_columns_partial, C40_comment_misaligned, C40_layout, C40_no_panic, C40_order, C40_rows, C41_autobrace, C41_consistent, C41_consistent_reads_partial, C41_multiline_function_not_braced, C41_multiline_if_not_braced, C41_no_double, C42_block, C42_top, C43_complete, C43_deletion_missed, C43_file, C43_pushed, C43_switched, C44_first_detected_false, C44_first_detected_partial, C45_column_not_clamped, C46_comma_extension_included, C46_default_exclude, C46_default_include_partial, C47_other_paths_matter, C47_other_paths_partial, C48_contents_lost, C48_crash_partial, C49_exception_differs, C49_named_or_found_partial, C49_nested_differs, C50_coherent, C51_crashes, C51_survives, C51_untitled_crash, C53_arguments_partial, C53_assignment, C53_chain, C53_parameters, C53_table_removed, C53_titled_removed, C54_lexed_partial, C54_reads_text_partial, C55_comments_only_indented, C55_neat_partial, C55_plain_partial, C56_again_partial, C56_blank_first_unstable, C56_idempotent_partial, C56_noted_idempotent_partial, C56_noted_partial, C56_printer_exists, C57_formats_partial, C57_idempotent_partial, C57_noted_partial, C57_parses, C58_dots_loop, C58_fields, C58_lists, C58_lossless, C58_slots, C58_whole, C59_again_partial, C59_file_partial, C59_noted_partial, C59_noted_run_partial, C59_run_partial, C59_second_run_partial, C60_comment_swallows, C60_crlf_left, C60_program_partial, C60_skip_file_cut, C61_arguments, C61_assignment, C61_chain, C61_parameters, C62_spaces, C63_blanks, C63_file_partial, C64_asked, C64_encoding, C64_only_offered, C64_registered, C65_block_partial, C65_statements_partial, C66_choice, C66_running, C67_consistent, C67_failing_stop, C67_one_server, C67_operations, C68_heard, C68_mirrors, C68_setting_ignored, C69_carriage_return, C69_initialized, C69_keeps, C69_rbuildignore, C69_twice_partial, C70_asked, C70_format_saved, C70_initialize_saved, C70_refused, C70_saved, C70_select_partial, C70_sibling, C71_root, C72_never_by_language, C73_windows, C74_warning, C75_assets, C75_inside, C76_cli, C76_decides, C76_dependency, C76_level, C76_ours_partial, C76_part, C76_prefix, C76_reload, C76_source, C77_accepts, C77_complete, C77_crash_spreads, C77_errors, C77_once, C77_order, C77_panics, C77_phases, C77_results, C77_settles, C77_survives, C78_kept, C78_reordered, C78_seats, C78_text, C79_arrive, C79_other_type, C79_roundtrip, C81_only, C81_reads, C81_text, C81_tokens, C81_unambiguous, C82_accepts, C82_air, C82_casts, C82_classes, C82_grammar, C82_required_partial, C82_shadowed, C82_source, C83_built, C83_generated, C83_list, C83_names, C83_required, C83_set, C83_typed, C84_accepted, C84_exact, C84_float, C85_grammar, C85_lists, C85_numbers, C85_punct, C85_roundtrip, C87_air, C87_arms, C87_dispatch, C87_hash, C87_keywords, C87_macro_partial, C87_numbered, C88_deleted, C88_generated, C88_half_staged, C88_handwritten, C88_options, C88_staged, C88_uncommitted_partial, C89_again, C89_air, C89_collision, C89_declared, C89_distinct, C89_files, C89_mod, C89_names, C90_several, C90_single_partial

`propext`, `Quot.sound`:
C03_apply_iff, C03_apply_length, C03_apply_total, C04_build_valid_partial, C06_union_not_symmetric, C07_invalidates, C20_check, C20_formatted, C20_untouched, C31_skip, C31_skip_file, C35_error, C36_layout_exists, C36_preserve, C36_tokens, C36_up_to_braces, C37_no_token_in_comment_partial, C39_settled, C40_named, C45_missing_line_partial, C48_complete_run, C52_complete, C52_visits, C57_unix, C58_no_panic, C72_length, C73_active, C74_levels_partial, C75_downloaded, C75_effects, C79_empty_delays, C79_recovers, C79_reserved, C79_stuck_missing, C79_stuck_utf8, C80_normal, C80_same_partial, C80_shown, C85_bogus, C85_bogus_class_partial, C85_keywords, C85_literals, C85_trivia, C86_missing, C86_order_partial

`propext`:
C06_union_failure, C29_cursor_at_line_end, C29_next_included, C29_selection_to_comment, C29_selection_to_end_ignored, C32_bom_panics, C35_kinds, C35_names, C35_names_injective, C35_texts_injective, C52_iterator, C52_skip, C55_empty, C66_untrusted, C70_same_name, C73_untouched, C75_preferred, C75_session, C80_link, C80_missing, C85_bogus_call, C86_equal

none:
C27_merge, C76_severity, C79_lower_case, C83_list_lost

<!-- /axioms -->
