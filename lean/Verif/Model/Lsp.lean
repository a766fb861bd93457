import Verif.Model.Documents
import Verif.Model.Discovery

/-!
# The language server (`crates/lsp/src/{state,workspaces,handlers,handlers_state,handlers_format,
file_patterns,main_loop}.rs`, `crates/lsp/src/notifications/sync_file_settings.rs`)

The main loop takes one event after the other from a channel, so the server is a state machine. What
the outside world answers while an event is handled (file system, client) is in `Env`. Logging is left
out. A panic of a handler ends the main loop.
-/

namespace Verif.Lsp

open Verif.Resolver (Path Resolver)
open Verif.Settings (Settings IndentStyle)
open Verif.TextChanges (Change Edit)
open Verif.LineIndex (Encoding LRange)
open Verif.Discovery (Disk)

/-- A URL: its text, its scheme and what `Url::to_file_path` makes of it. (external;
crates/lsp/src/workspaces.rs, crates/lsp/src/main_loop.rs:192-203) -/
structure Url where
  text : String
  scheme : String
  filePath : Option Path
  deriving DecidableEq, Repr

/-! ## Workspaces -/

/-- `WorkspaceSettings` (workspaces.rs:34-37). -/
inductive WorkspaceSettings | toml (s : Settings) | fallback (s : Settings)

/-- `WorkspaceSettings::settings` (workspaces.rs:248-253). -/
def WorkspaceSettings.settings : WorkspaceSettings → Settings
  | .toml s => s
  | .fallback s => s

/-- `WorkspaceSettings::to_format_options` (workspaces.rs:255-272). -/
def WorkspaceSettings.toFormatOptions (w : WorkspaceSettings) (windows : Bool) (source : List Char)
    (d : DocSettings) : RFormatOptions :=
  match w with
  | .toml s => Lsp.toFormatOptions windows s source
  | .fallback s => d.merge (Lsp.toFormatOptions windows s source)

/-- `WorkspaceSettingsResolver` (workspaces.rs:26-31). -/
abbrev Workspaces := Resolver (Resolver Settings)

/-- `url_to_path` (workspaces.rs:234-244), both for other schemes and for failed conversions. -/
def urlToPath (u : Url) : Option Path :=
  if u.scheme ≠ "file" then none else u.filePath

/-- `open_workspace_folder` (workspaces.rs:69-109). -/
def openWorkspaceFolder (compile : Path → List String → Option FilePatterns.FilePatterns)
    (disk : Disk) (w : Workspaces) (u : Url) : Workspaces :=
  match urlToPath u with
  | none => w
  | some path =>
    match Discovery.discoverSettings compile disk [path] with
    | none => w
    | some discovered => (Resolver.add w path (Discovery.buildResolver discovered)).1

/-- `close_workspace_folder` (workspaces.rs:111-124). -/
def closeWorkspaceFolder (w : Workspaces) (u : Url) : Workspaces :=
  match urlToPath u with
  | none => w
  | some path => (Resolver.remove w path).1

/-- `from_workspace_folders` (workspaces.rs:41-58). -/
def fromWorkspaceFolders (compile : Path → List String → Option FilePatterns.FilePatterns)
    (disk : Disk) (folders : List Url) : Workspaces :=
  folders.foldl (openWorkspaceFolder compile disk) (Resolver.new (Resolver.new Settings.default))

/-- `settings_for_path` (workspaces.rs:220-232). -/
def settingsForPath (w : Workspaces) (path : Path) : WorkspaceSettings :=
  match (Resolver.resolve w path).bind fun item => Resolver.resolve item.value path with
  | none => .fallback w.fallback.fallback
  | some item => .toml item.value

/-- `settings_for_url` (workspaces.rs:127-150). -/
def settingsForUrl (w : Workspaces) (u : Url) : WorkspaceSettings :=
  match urlToPath u with
  | some path => settingsForPath w path
  | none =>
    match w.items with
    | [item] =>
      if u.scheme = "untitled" then settingsForPath w (item.path ++ ["untitled"])
      else .fallback w.fallback.fallback
    | _ => .fallback w.fallback.fallback

/-- The body of the loop of `reload_workspaces_matched_by_url` for one workspace
(workspaces.rs:181-209): its new settings, and whether `changed` was set. -/
def reloadWorkspace (compile : Path → List String → Option FilePatterns.FilePatterns) (disk : Disk)
    (item : Resolver.Item (Resolver Settings)) : Resolver Settings × Bool :=
  let cleared := Resolver.clear item.value
  match Discovery.discoverSettings compile disk [item.path] with
  | none => (cleared, false)
  | some discovered =>
    (discovered.foldl (fun r d => (Resolver.add r d.1 d.2).1) cleared, !discovered.isEmpty)

/-- `reload_workspaces_matched_by_url` (workspaces.rs:159-213). -/
def reloadWorkspaces (compile : Path → List String → Option FilePatterns.FilePatterns) (disk : Disk)
    (w : Workspaces) (u : Url) : Workspaces × Bool :=
  match urlToPath u with
  | none => (w, false)
  | some path =>
    if Discovery.isAirToml path then
      (Resolver.matchesMut w path fun item => (reloadWorkspace compile disk item).1,
       (Resolver.matches w path).any fun item => (reloadWorkspace compile disk item).2)
    else (w, false)

/-! ## Excluded documents -/

/-- `is_document_excluded` (crates/lsp/src/file_patterns.rs:31-82); the outer `none` is a panic of the
gitignore matcher. -/
def isDocumentExcluded (path : Path) (s : Settings) (languageId : String) : Option Bool :=
  match Discovery.anyExcludeMatchedPathOrAnyParents path false s with
  | none => none
  | some true => some true
  | some false =>
    if Discovery.anyIncludeMatchedPath path s then some false
    else if languageId = "r" then some false
    else some true

/-! ## State -/

/-- `AirClientCapabilities` (capabilities.rs:13-18). -/
structure Capabilities where
  utf8 : Bool
  registerConfiguration : Bool
  registerWatchedFiles : Bool
  requestConfiguration : Bool
  deriving DecidableEq, Repr

/-- `WorldState` and `LspState` (state.rs:10-41, main_loop.rs:149-170). The `HashMap` of documents is
an association list with distinct keys; its iteration order is not the order of the list but
`Env.order`. `logging` is `log_state.is_some()`, equivalently the `log_tx` has been taken. -/
structure State (T : Tools) where
  docs : List (Url × Document T) := []
  workspaces : Workspaces := Resolver.new (Resolver.new Settings.default)
  encoding : Encoding := .utf16
  capabilities : Capabilities := ⟨false, false, false, false⟩
  logging : Bool := false
  sync : Bool := false

variable {T : Tools}

/-- `WorldState::get_document` (state.rs:44-46). -/
def State.doc (s : State T) (u : Url) : Option (Document T) := s.docs.lookup u

/-- `HashMap::insert`. (std, external; crates/lsp/src/handlers_state.rs:134-156) -/
def insertDoc (docs : List (Url × Document T)) (u : Url) (d : Document T) : List (Url × Document T) :=
  (u, d) :: docs.filter fun e => e.1 ≠ u

/-- Assignment through `get_document_mut` (state.rs:48-50). -/
def modifyDoc (docs : List (Url × Document T)) (u : Url) (f : Document T → Document T) :
    List (Url × Document T) :=
  docs.map fun e => if e.1 = u then (e.1, f e.2) else e

/-- A JSON value as far as the configuration is concerned: non-negative integers, and everything else
that is neither null, a boolean nor a string. (serde_json, external; crates/lsp/src/handlers_state.rs:263-420) -/
inductive Json | null | bool (b : Bool) | str (s : String) | uint (n : Nat) | other
  deriving DecidableEq, Repr

/-- `lsp_types::ConfigurationItem`. (external; crates/lsp/src/handlers_state.rs:275-310) -/
structure ConfigItem where
  scope : Option Url
  section_ : String
  deriving DecidableEq, Repr

/-- `FileSettings` (notifications/sync_file_settings.rs:11-22). -/
structure FileSettings where
  url : String
  indentStyle : IndentStyle
  indentWidth : Nat
  lineWidth : Nat
  deriving DecidableEq, Repr

/-- What the server sends to the client on its own. (crates/lsp/src/handlers.rs:22-94,
crates/lsp/src/notifications/sync_file_settings.rs:43-69) -/
inductive Out
  | register (sections : List String) (watchers : Bool)
  | configuration (items : List ConfigItem)
  | syncFileSettings (files : List FileSettings)
  deriving DecidableEq, Repr

/-- The answers of the outside world while one event is handled. (what crates/lsp/src/handlers.rs:22-94 and
crates/lsp/src/handlers_state.rs:65-420 get from the client and the file system) -/
structure Env where
  disk : Disk
  /-- The answer to `workspace/configuration`; `none` is an error. -/
  config : List ConfigItem → Option (List Json)
  /-- Whether `client/registerCapability` succeeds. -/
  register : Bool
  /-- Iteration order of the `HashMap` of documents (`workspace_uris`, state.rs:66-68). -/
  order : List Url → List Url
  perm : ∀ l, (order l).Perm l

/-- What a handler does: `none` is a panic, otherwise the new state, whether it returned `Ok`, and the
messages sent. (crates/lsp/src/main_loop.rs:315-395) -/
abbrev Handled (T : Tools) := Option (State T × Bool × List Out)

/-! ## Handlers -/

/-- `VscDocumentSettings::section_from_key` for all fields (crates/lsp/src/settings_vsc.rs:27-33, 93-99). -/
def documentSections : List String := ["editor.insertSpaces", "editor.indentSize", "editor.tabSize"]
/-- `VscDiagnosticsSettings::section_from_key` for all fields (crates/lsp/src/settings_vsc.rs:42-46, 101-107). -/
def diagnosticsSections : List String := ["positron.r.diagnostics.enable"]
/-- `VscGlobalSettings::section_from_key` for all fields (crates/lsp/src/settings_vsc.rs:18-25, 59-67). -/
def globalSections : List String :=
  ["air.logLevel", "air.dependencyLogLevels", "air.syncFileSettingsWithClient"]

/-- `handle_initialized` (handlers.rs:23-94). -/
def handleInitialized (env : Env) (s : State T) : Handled T :=
  let sections := if s.capabilities.registerConfiguration
    then documentSections ++ diagnosticsSections ++ globalSections else []
  if sections.isEmpty && !s.capabilities.registerWatchedFiles then some (s, true, [])
  else some (s, env.register, [.register sections s.capabilities.registerWatchedFiles])

/-- The body of the `filter_map` in `sync_file_settings` (notifications/sync_file_settings.rs:48-61). -/
def fileSettings (w : Workspaces) (u : Url) : Option FileSettings :=
  match settingsForUrl w u with
  | .toml t => some { url := u.text, indentStyle := t.indentStyle, indentWidth := t.indentWidth,
                      lineWidth := t.lineWidth }
  | .fallback _ => none

/-- `sync_file_settings` (notifications/sync_file_settings.rs:43-69). -/
def syncFileSettings (s : State T) (urls : List Url) : List Out :=
  if s.sync then [.syncFileSettings (urls.filterMap (fileSettings s.workspaces))] else []

/-- Deserialisation of an `Option` field: null (or an absent key) is `None`. (serde, external;
crates/lsp/src/settings_vsc.rs:19-47) -/
def optField {α : Type} (de : Json → Option α) : Option Json → Option (Option α)
  | none => some none
  | some .null => some none
  | some j => (de j).map some

/-- Deserialising a `bool` (serde, external; crates/lsp/src/settings_vsc.rs:19-47). -/
def Json.bool? : Json → Option Bool
  | .bool b => some b
  | _ => none

/-- Deserialising a `usize` (serde, external; crates/lsp/src/settings_vsc.rs:27-33). -/
def Json.uint? : Json → Option Nat
  | .uint n => some n
  | _ => none

/-- Deserialising a `String` (serde, external; crates/lsp/src/settings_vsc.rs:19-47). -/
def Json.str? : Json → Option String
  | .str s => some s
  | _ => none

/-- `VscIndentSize` (settings_vsc.rs:35-40, untagged). -/
inductive VscIndentSize | alias (s : String) | size (n : Nat)
  deriving DecidableEq, Repr

/-- Derived `Deserialize for VscIndentSize`, untagged (crates/lsp/src/settings_vsc.rs:35-40). -/
def Json.indentSize? : Json → Option VscIndentSize
  | .str s => some (.alias s)
  | .uint n => some (.size n)
  | _ => none

/-- `indent_width_from_vsc` (settings_vsc.rs:112-128). -/
def indentWidthFromVsc (i : VscIndentSize) (tabSize : Nat) : Nat :=
  match i with
  | .size n => indentWidthFromUsize n
  | .alias v => if v ≠ "tabSize" then 2 else indentWidthFromUsize tabSize

/-- `From<VscDocumentSettings> for DocumentSettings` (settings_vsc.rs:71-92), all or nothing. -/
def fromVsc (insertSpaces : Option Bool) (indentSize : Option VscIndentSize) (tabSize : Option Nat) :
    DocSettings :=
  match insertSpaces, indentSize, tabSize with
  | some a, some b, some c =>
    { indentStyle := some (indentStyleFromVsc a), indentWidth := some (indentWidthFromVsc b c) }
  | _, _, _ => {}

/-- Deserialising the three values of one document (handlers_state.rs:377-388, the derive of
`VscDocumentSettings`, settings_vsc.rs:27-33). -/
def documentConfig (items : List Json) : Option DocSettings := do
  let insertSpaces ← optField Json.bool? items[0]?
  let indentSize ← optField Json.indentSize? items[1]?
  let tabSize ← optField Json.uint? items[2]?
  some (fromVsc insertSpaces indentSize tabSize)

/-- `update_documents_config` (handlers_state.rs:367-396): the documents are updated one by one, until
the first failure. -/
def updateDocumentsConfig : List Url → List Json → List (Url × Document T) →
    List (Url × Document T) × Bool
  | [], _, docs => (docs, true)
  | u :: us, items, docs =>
    match documentConfig (items.take 3) with
    | none => (docs, false)
    | some config =>
      match docs.lookup u with
      | none => (docs, false)
      | some _ =>
        updateDocumentsConfig us (items.drop 3) (modifyDoc docs u fun d => { d with settings := config })

/-- The names of the variants of `LogLevel` (crates/lsp/src/logging.rs:349-358). -/
def logLevels : List String := ["error", "warn", "info", "debug", "trace"]

/-- Derived `Deserialize for LogLevel` (logging.rs:349-358). -/
def Json.logLevel? : Json → Option String
  | .str s => if logLevels.contains s then some s else none
  | _ => none

/-- Deserialising `VscGlobalSettings` (settings_vsc.rs:19-25) and converting it to `GlobalSettings`
(settings_vsc.rs:48-56). -/
def globalConfig (items : List Json) : Option Bool := do
  let _ ← optField Json.logLevel? items[0]?
  let _ ← optField Json.str? items[1]?
  let sync ← optField Json.bool? items[2]?
  some (sync.getD false)

/-- `update_global_config` (handlers_state.rs:398-431). -/
def updateGlobalConfig (env : Env) (items : List Json) (s : State T) : State T × Bool × List Out :=
  if !s.logging then (s, false, [])
  else
    match globalConfig items with
    | none => (s, false, [])
    | some sync =>
      let s' := { s with sync }
      (s', true, if !s.sync && sync then syncFileSettings s' (env.order (s.docs.map Prod.fst)) else [])

/-- The requested items (handlers_state.rs:271-305). -/
def configItems (uris : List Url) : List ConfigItem :=
  diagnosticsSections.map (fun x => { scope := none, section_ := x }) ++
  uris.flatMap (fun u => documentSections.map fun x => { scope := some u, section_ := x }) ++
  globalSections.map (fun x => { scope := none, section_ := x })

/-- `update_config` (handlers_state.rs:261-344). `update_diagnostics_config` has no effect. -/
def updateConfig (env : Env) (uris : List Url) (s : State T) : State T × Bool × List Out :=
  if !s.capabilities.requestConfiguration then (s, true, [])
  else
    let items := configItems uris
    match env.config items with
    | none => (s, false, [.configuration items])
    | some configs =>
      if configs.length ≠ 1 + 3 * uris.length + 3 then (s, false, [.configuration items])
      else
        let configs := configs.drop 1
        match updateDocumentsConfig uris (configs.take (3 * uris.length)) s.docs with
        | (docs, false) => ({ s with docs }, false, [.configuration items])
        | (docs, true) =>
          match updateGlobalConfig env (configs.drop (3 * uris.length)) { s with docs } with
          | (s', ok, outs) => (s', ok, .configuration items :: outs)

/-- `did_open` (handlers_state.rs:127-149). -/
def didOpen (env : Env) (u : Url) (version : Int) (text : List Char) (s : State T) : Handled T :=
  (Document.new (T := T) text (some version) s.encoding).map fun d =>
    match updateConfig env [u] { s with docs := insertDoc s.docs u d } with
    | (s, false, outs) => (s, false, outs)
    | (s, true, outs) => (s, true, outs ++ syncFileSettings s [u])

/-- `did_change` (handlers_state.rs:152-161). -/
def didChange (u : Url) (version : Int) (changes : List Change) (s : State T) : Handled T :=
  match s.doc u with
  | none => some (s, false, [])
  | some d => (d.onDidChange changes version).map fun d' =>
      ({ s with docs := modifyDoc s.docs u fun _ => d' }, true, [])

/-- `did_close` (handlers_state.rs:164-179). -/
def didClose (u : Url) (s : State T) : Handled T :=
  match s.doc u with
  | none => some (s, false, [])
  | some _ => some ({ s with docs := s.docs.filter fun e => e.1 ≠ u }, true, [])

/-- `did_change_workspace_folders` (handlers_state.rs:196-207). -/
def didChangeWorkspaceFolders (env : Env) (added removed : List Url) (s : State T) : Handled T :=
  let w := added.foldl (openWorkspaceFolder T.compile env.disk) s.workspaces
  some ({ s with workspaces := removed.foldl closeWorkspaceFolder w }, true, [])

/-- The loop of `did_change_watched_files` (handlers_state.rs:214-223). -/
def reloadAll (compile : Path → List String → Option FilePatterns.FilePatterns) (disk : Disk) :
    List Url → Workspaces → Workspaces × Bool
  | [], w => (w, false)
  | u :: us, w =>
    let r := reloadWorkspaces compile disk w u
    let rest := reloadAll compile disk us r.1
    (rest.1, r.2 || rest.2)

/-- `did_change_watched_files` (handlers_state.rs:209-231). -/
def didChangeWatchedFiles (env : Env) (uris : List Url) (s : State T) : Handled T :=
  let r := reloadAll T.compile env.disk uris s.workspaces
  let s' := { s with workspaces := r.1 }
  some (s', true, if r.2 then syncFileSettings s' (env.order (s.docs.map Prod.fst)) else [])

/-- `lsp_types::FormattingOptions`. (external; crates/lsp/src/handlers_state.rs:240-261) -/
structure FormattingOptions where
  insertSpaces : Bool
  tabSize : Nat
  deriving DecidableEq, Repr

/-- `did_change_formatting_options` (handlers_state.rs:234-259). -/
def didChangeFormattingOptions (u : Url) (o : FormattingOptions) (s : State T) : State T :=
  { s with docs := modifyDoc s.docs u fun d =>
      { d with settings := { d.settings with
          indentStyle := some (indentStyleFromVsc o.insertSpaces)
          indentWidth := some (indentWidthFromUsize o.tabSize) } } }

/-- Result of a request handler: `Ok` value or `Err`. (crates/lsp/src/main_loop.rs:434-450) -/
abbrev Answer (α : Type) := Option α

/-- handlers_format.rs:24-39, 82-97: the language is always taken to be R. -/
def excludedFromFormatting (w : WorkspaceSettings) (u : Url) : Option Bool :=
  match u.filePath with
  | some path => isDocumentExcluded path w.settings "r"
  | none => some false

/-- The first part of the formatting handlers (handlers_format.rs:19-46, 77-104): the document
with its settings, if it is to be formatted. The three levels are panic, error, nothing to do. -/
def formattable (u : Url) (s : State T) :
    Option (Answer (Option (Document T × WorkspaceSettings))) :=
  match s.doc u with
  | none => some none
  | some d =>
    let w := settingsForUrl s.workspaces u
    match excludedFromFormatting w u with
    | none => none
    | some true => some (some none)
    | some false => if T.hasError d.parse then some (some none) else some (some (some (d, w)))

/-- `document_formatting` (handlers_format.rs:14-69) with `format_source_with_parse`
(crates/workspace/src/format.rs:62-82). -/
def documentFormatting (u : Url) (s : State T) : Option (Answer (Option (List Edit))) :=
  match formattable u s with
  | none => none
  | some none => some none
  | some (some none) => some (some none)
  | some (some (some (d, w))) =>
    match T.format (w.toFormatOptions T.windows d.contents d.settings) d.parse with
    | none => some none
    | some formatted =>
      if formatted = d.contents then some (some none)
      else
        let formatted :=
          if u.scheme = "vscode-notebook-cell" ∧ formatted.getLast? = some '\n' then formatted.dropLast
          else formatted
        match TextChanges.replaceAllEdit d.encoding d.index d.endings (T.diff d.contents formatted) with
        | none => some none
        | some es => some (some (some es))

/-- `document_range_formatting` (handlers_format.rs:72-166). A selection that ends before it starts
panics in `TextRange::new` (from_proto.rs:55). -/
def documentRangeFormatting (u : Url) (range : LRange) (s : State T) :
    Option (Answer (Option (List Edit))) :=
  match formattable u s with
  | none => none
  | some none => some none
  | some (some none) => some (some none)
  | some (some (some (d, w))) =>
    match LineIndex.offsetFromPosition d.encoding d.index range.start,
      LineIndex.offsetFromPosition d.encoding d.index range.stop with
    | some start, some stop =>
      if stop < start then none
      else
        match T.formatRange (w.toFormatOptions T.windows d.contents d.settings) d.parse
            (start, stop) with
        | none => some none
        | some none => some (some none)
        | some (some (r, text)) =>
          match TextChanges.replaceRangeEdit d.encoding d.index d.endings r text with
          | none => some none
          | some es => some (some (some es))
    | _, _ => some none

/-! ## Main loop -/

/-- `LspNotification` (tower_lsp.rs:46-56). -/
inductive Notification
  | initialized
  | didChangeWorkspaceFolders (added removed : List Url)
  | didChangeConfiguration
  | didChangeWatchedFiles (uris : List Url)
  | didOpen (u : Url) (version : Int) (text : List Char)
  | didChange (u : Url) (version : Int) (changes : List Change)
  | didSave (u : Url)
  | didClose (u : Url)

/-- `LspRequest` (tower_lsp.rs:58-66). -/
inductive Request
  | initialize (folders : List Url) (capabilities : Capabilities)
  | shutdown
  | formatting (u : Url) (options : FormattingOptions)
  | rangeFormatting (u : Url) (range : LRange) (options : FormattingOptions)
  | viewFile (u : Url) (kind : Nat)

/-- `Event` (main_loop.rs:54-59); kernel events are ignored by the loop. Requests carry the identity of
their response channel. -/
inductive Event
  | notification (n : Notification)
  | request (id : Nat) (r : Request)
  | kernel

/-- `LspResponse` (tower_lsp.rs:68-76). -/
inductive Response
  | initialize (encoding : Encoding)
  | shutdown
  | edits (es : Option (List Edit))
  | rangeEdits (es : Option (List Edit))
  | text (s : String)
  deriving DecidableEq, Repr

/-- `initialize` (handlers_state.rs:64-124), called with the `log_tx` (main_loop.rs:351-352: the second
`take().unwrap()` panics). -/
def handleInitialize (env : Env) (folders : List Url) (c : Capabilities) (s : State T) :
    Option (State T × Answer Response) :=
  if s.logging then none
  else
    let encoding : Encoding := if c.utf8 then .utf8 else .utf16
    some ({ s with logging := true, workspaces := fromWorkspaceFolders T.compile env.disk folders,
                   capabilities := c, encoding }, some (.initialize encoding))

/-- `view_file` (handlers_ext.rs:27-71). -/
def viewFile (u : Url) (kind : Nat) (s : State T) : Answer Response :=
  (s.doc u).bind fun d => (T.view kind d.contents d.parse).map .text

/-- The notification branch of `handle_event` (main_loop.rs:318-346). -/
def handleNotification (env : Env) (n : Notification) (s : State T) : Handled T :=
  match n with
  | .initialized => handleInitialized env s
  | .didChangeWorkspaceFolders added removed => didChangeWorkspaceFolders env added removed s
  | .didChangeConfiguration => some (updateConfig env (env.order (s.docs.map Prod.fst)) s)
  | .didChangeWatchedFiles uris => didChangeWatchedFiles env uris s
  | .didOpen u version text => didOpen env u version text s
  | .didChange u version changes => didChange u version changes s
  | .didSave _ => some (s, true, [])
  | .didClose u => didClose u s

/-- The request branch of `handle_event` (main_loop.rs:348-372): new state and what is sent to the
response channel. -/
def handleRequest (env : Env) (r : Request) (s : State T) : Option (State T × Answer Response) :=
  match r with
  | .initialize folders c => handleInitialize env folders c s
  | .shutdown => some (s, some .shutdown)
  | .formatting u o =>
    let s := didChangeFormattingOptions u o s
    (documentFormatting u s).map fun a => (s, a.map .edits)
  | .rangeFormatting u range o =>
    let s := didChangeFormattingOptions u o s
    (documentRangeFormatting u range s).map fun a => (s, a.map .rangeEdits)
  | .viewFile u kind => some (s, viewFile u kind s)

/-- `LoopControl` and the result of `handle_event` (main_loop.rs:312-386): panic, or a new state with
the responses and messages sent and whether the loop goes on. An `Err` is logged only
(main_loop.rs:288-292). -/
structure Tick (T : Tools) where
  state : State T
  response : Option (Nat × Answer Response)
  outs : List Out
  shutdown : Bool

/-- `handle_event` (crates/lsp/src/main_loop.rs:315-395). -/
def handleEvent (env : Env) (e : Event) (s : State T) : Option (Tick T) :=
  match e with
  | .notification n =>
    (handleNotification env n s).map fun (s, _, outs) =>
      { state := s, response := none, outs, shutdown := false }
  | .request id r =>
    (handleRequest env r s).map fun (s, a) =>
      { state := s, response := some (id, a), outs := [],
        shutdown := match r with | .shutdown => true | _ => false }
  | .kernel => some { state := s, response := none, outs := [], shutdown := false }

/-- How the loop ended. (crates/lsp/src/main_loop.rs:270-295) -/
inductive Ending | waiting | shutdown | crashed
  deriving DecidableEq, Repr

/-- What the main loop has done (crates/lsp/src/main_loop.rs:270-295). -/
structure Loop (T : Tools) where
  state : State T
  responses : List (Nat × Answer Response)
  outs : List Out
  ending : Ending

/-- `main_loop` (main_loop.rs:271-297) fed with a sequence of events. -/
def mainLoop : List (Env × Event) → State T → Loop T
  | [], s => { state := s, responses := [], outs := [], ending := .waiting }
  | (env, e) :: rest, s =>
    match handleEvent env e s with
    | none => { state := s, responses := [], outs := [], ending := .crashed }
    | some t =>
      if t.shutdown then
        { state := t.state, responses := t.response.toList, outs := t.outs, ending := .shutdown }
      else
        let r := mainLoop rest t.state
        { r with responses := t.response.toList ++ r.responses, outs := t.outs ++ r.outs }

end Verif.Lsp
