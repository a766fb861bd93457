/-!
# The extension for VS Code (`editors/code/src`)

The parts of the extension that decide something: which executable is started and when, what is contributed to the
`PATH` of terminals, which folder is used, what the commands write, how requests for configuration are answered, and
which options editors get. Messages and logging are not modelled. The `vscode` API and the file system are parameters.
-/

namespace Verif.Editor

/-- A path as the editor writes it (external). -/
abbrev Path := String

/-! ## The executable (`binary.ts`) -/

/-- `ExecutableStrategy` (binary.ts:8); `other`: any other value in the settings. -/
inductive Strategy | bundled | environment | path | other
  deriving DecidableEq, Repr

/-- What the choice depends on.
* `trusted`: `vscode.workspace.isTrusted`
* `exists_`: `fs.existsSync`
* `which`: `which(AIR_BINARY_NAME, { nothrow: true })`
* `bundled`: `BUNDLED_AIR_EXECUTABLE` (editors/code/src/binary.ts:10-130) -/
structure Machine where
  trusted : Bool
  exists_ : Path → Bool
  which : Option Path
  bundled : Path

/-- `airBinaryFromBundled` (binary.ts:85-95). -/
def fromBundled (m : Machine) : Option Path := if m.exists_ m.bundled then some m.bundled else none

/-- `airBinaryFromEnvironment` (binary.ts:97-107); the empty string counts as nothing. -/
def fromEnvironment (m : Machine) : Option Path :=
  match m.which with
  | some p => if p = "" then none else some p
  | none => none

/-- `airBinaryFromPath` (binary.ts:109-128). -/
def fromPath (m : Machine) (p : Option Path) : Option Path :=
  match p with
  | some p => if p = "" then none else if m.exists_ p then some p else none
  | none => none

/-- `resolveAirBinaryPath` (binary.ts:10-83). `none`: it throws. -/
def resolve (m : Machine) (s : Strategy) (p : Option Path) : Option Path :=
  if !m.trusted then fromBundled m
  else
    match s with
    | .bundled => match fromBundled m with | some b => some b | none => fromEnvironment m
    | .environment => match fromEnvironment m with | some e => some e | none => fromBundled m
    | .path => fromPath m p
    | .other => none

/-! ## Folders (`workspace.ts`) -/

/-- `vscode.WorkspaceFolder`. (external type; editors/code/src/workspace.ts:16-58) -/
structure Folder where
  path : Path
  name : String
  deriving DecidableEq, Repr

/-- The loop over the folders that looks for a shorter path (workspace.ts:44-54). -/
def shorter (ex : Path → Bool) (root : Folder) : List Folder → Folder
  | [] => root
  | w :: ws => shorter ex (if w.path.length < root.path.length ∧ ex w.path = true then w else root) ws

/-- `getRootWorkspaceFolder` (workspace.ts:16-58); `cwd`: the folder for the current directory. The path of a folder is
not empty. -/
def rootFolder (ex : Path → Bool) (cwd : Folder) : List Folder → Folder
  | [] => cwd
  | [w] => w
  | w :: ws =>
    match (w :: ws).find? (fun v => ex v.path) with
    | some r => shorter ex r (w :: ws)
    | none => w

/-- `selectWorkspaceFolder` (workspace.ts:71-128); `pick`: the entry that the user picks in the list of names. -/
def selectFolder (pick : Option Nat) : List Folder → Option Folder
  | [] => none
  | [w] => some w
  | ws =>
    match pick with
    | none => none
    | some i =>
      match (ws.map Folder.name)[i]? with
      | none => none
      | some n => if n = "" then none else ws.find? (fun w => w.name == n)

/-! ## Starting and stopping (`lsp.ts`) -/

/-- Settings that are read for a folder, by their key (settings.ts:35-47). -/
structure Config where
  strategy : Option Strategy
  path : Option Path
  flag : String → Option Bool

/-- `getWorkspaceSettings("air", ..).addExecutableToPath` (settings.ts:45). -/
def Config.addsToPath (c : Config) : Bool := (c.flag "air.addExecutableToPath").getD true

/-- What happens around one operation.
* `config`: the settings of the folder at that time
* `starts`, `stops`: whether `client.start()`, `client.stop()` succeed (what editors/code/src/lsp.ts:115-260
depends on) -/
structure World where
  machine : Machine
  folders : List Folder
  cwd : Folder
  config : Folder → Config
  starts : Bool
  stops : Bool

/-- `StateChange` (lsp.ts:25-33). -/
inductive Change
  | started (binary : Path) (folder : Folder)
  | stopped
  deriving DecidableEq, Repr

/-- The state of `Lsp` (lsp.ts:35-56). `client`: the number of the client. Besides the fields of the class:
* `next`: the number of the next client
* `alive`: the servers that are running, with their executables -/
structure Session where
  state : Bool := false
  client : Option Nat := none
  binary : Option Path := none
  next : Nat := 0
  alive : List (Nat × Path) := []
  deriving DecidableEq, Repr

/-- `startImpl` (lsp.ts:115-230), with whether it throws. A client that fails to start leaves no server. -/
def startImpl (w : World) (s : Session) : Session × List Change × Bool :=
  if s.state then (s, [], true)
  else
    let folder := rootFolder (w.machine.exists_) w.cwd w.folders
    let c := w.config folder
    match resolve w.machine (c.strategy.getD .bundled) c.path with
    | none => (s, [], false)
    | some b =>
      if w.starts then
        ({ state := true, client := some s.next, binary := some b, next := s.next + 1,
           alive := (s.next, b) :: s.alive }, [.started b folder], true)
      else ({ s with next := s.next + 1 }, [], false)

/-- `stopImpl` (lsp.ts:232-251), with whether it throws. A client that fails to stop may leave its server. -/
def stopImpl (w : World) (s : Session) : Session × List Change × Bool :=
  if !s.state then (s, [], true)
  else
    let alive :=
      match s.client with
      | some k => if w.stops then s.alive.filter (fun a => a.1 != k) else s.alive
      | none => s.alive
    ({ s with state := false, client := none, binary := none, alive }, [.stopped], w.stops)

/-- `restartImpl` (lsp.ts:253-258). -/
def restartImpl (w : World) (s : Session) : Session × List Change × Bool :=
  if s.state then
    match stopImpl w s with
    | (s, cs, false) => (s, cs, false)
    | (s, cs, true) =>
      match startImpl w s with
      | (s, cs', ok) => (s, cs ++ cs', ok)
  else startImpl w s

/-- The operations on the queue; they run one after the other (lsp.ts:62,103-113). -/
inductive Op | start | stop | restart
  deriving DecidableEq, Repr

/-- The operations (editors/code/src/lsp.ts:103-113, 115-258). -/
def Op.run (w : World) (s : Session) : Op → Session × List Change × Bool
  | .start => startImpl w s
  | .stop => stopImpl w s
  | .restart => restartImpl w s

/-! ## The `PATH` of terminals (`environment.ts`) -/

/-- `PathEnvironmentVariableManager` (environment.ts:10-14) and what it contributes to `PATH`. -/
structure Terminal where
  dir : Option Path := none
  folder : Option Folder := none
  contributed : Option Path := none
  deriving DecidableEq, Repr

/-- `update` (environment.ts:57-76). -/
def Terminal.update (config : Folder → Config) (t : Terminal) : Terminal :=
  match t.folder, t.dir with
  | some f, some d => { t with contributed := if (config f).addsToPath then some d else none }
  | _, _ => t

/-- The listener for state changes (environment.ts:22-41); `dirname`: `path.dirname`. -/
def Terminal.onChange (dirname : Path → Path) (config : Folder → Config) (t : Terminal) : Change → Terminal
  | .started b f => { t with dir := some (dirname b), folder := some f }.update config
  | .stopped => { dir := none, folder := none, contributed := none }

/-- The listener for changed settings (environment.ts:43-54); `affected`: `event.affectsConfiguration`. -/
def Terminal.onConfig (config : Folder → Config) (affected : String → Bool) (t : Terminal) : Terminal :=
  if affected "air.addExecutableToTerminalPath" then t.update config else t

/-- What happens: an operation on the queue, or a change of settings. (editors/code/src/lsp.ts:103-113,
editors/code/src/environment.ts:22-55) -/
inductive Event
  | op (w : World) (o : Op)
  | config (c : Folder → Config) (affected : String → Bool)

/-- Server and terminals together (extension.ts:9-30). -/
def Event.run (dirname : Path → Path) (x : Session × Terminal) : Event → Session × Terminal
  | .op w o =>
    let r := o.run w x.1
    (r.1, r.2.1.foldl (Terminal.onChange dirname w.config) x.2)
  | .config c affected => (x.1, x.2.onConfig c affected)

/-- Everything that happens after activation. (editors/code/src/extension.ts:10-80 and the queue of
editors/code/src/lsp.ts:103-113) -/
def runAll (dirname : Path → Path) (es : List Event) : Session × Terminal :=
  es.foldl (Event.run dirname) ({}, {})

/-! ## Commands (`command/*.ts`) -/

/-- `vscode.TextDocument`; `saves`: whether `save()` succeeds. (external type;
editors/code/src/command/workspace-folder-formatting.ts:43-103) -/
structure Document where
  path : Path
  closed : Bool
  dirty : Bool
  untitled : Bool
  saves : Bool
  deriving DecidableEq, Repr

/-- `dirtyWorkspaceTextDocuments` (workspace.ts:168-194). -/
def dirtyDocuments (f : Folder) (docs : List Document) : List Document :=
  docs.filter fun d => !d.closed && d.dirty && !d.untitled && f.path.toList.isPrefixOf d.path.toList

/-- What a command does. (editors/code/src/command/workspace-folder-formatting.ts:43-103,
editors/code/src/command/workspace-folder-initialization.ts:22-47) -/
inductive Effect
  | save (d : Document)
  | initialize
  | spawn (binary : Path) (args : List String) (cwd : Path)
  deriving DecidableEq, Repr

/-- `saveAllDirtyWorkspaceTextDocuments` (workspace.ts:137-166); `agrees`: the answer of the user. -/
def saveAll (f : Folder) (docs : List Document) (agrees : Bool) : List Effect × Bool :=
  match dirtyDocuments f docs with
  | [] => ([], true)
  | ds => if agrees then (ds.map .save, ds.all Document.saves) else ([], false)

/-- `workspaceFolderFormatting` (command/workspace-folder-formatting.ts:43-103) up to its messages. -/
def formatFolder (f : Folder) (binary : Path) (docs : List Document) (agrees : Bool) : List Effect :=
  match saveAll f docs agrees with
  | (es, true) => es ++ [.spawn binary ["format", f.path, "--no-color"] f.path]
  | (es, false) => es

/-- `workspaceFolderInitialization` (command/workspace-folder-initialization.ts:22-47) up to its messages; what it
writes is the subject of `Files.initialize`. `docs'`, `agrees'`: documents and answer at the time of formatting;
`formats`: the user asks for formatting. -/
def initializeFolder (f : Folder) (binary : Path) (docs : List Document) (agrees : Bool) (formats : Bool)
    (docs' : List Document) (agrees' : Bool) : List Effect :=
  match saveAll f docs agrees with
  | (es, true) => es ++ [.initialize] ++ if formats then formatFolder f binary docs' agrees' else []
  | (es, false) => es

/-! ### Files written by the initialisation -/

/-- `content.split("\n")`. (editors/code/src/command/workspace-folder-initialization.ts:184) -/
def splitLf : List Char → List (List Char)
  | [] => [[]]
  | c :: cs =>
    if c = '\n' then [] :: splitLf cs
    else match splitLf cs with
      | l :: ls => (c :: l) :: ls
      | [] => [[c]]

/-- `content.split("\r\n")`; `cr`: the last character was a carriage return that is not yet part of a line.
(editors/code/src/command/workspace-folder-initialization.ts:184) -/
def splitCrlf (cr : Bool) : List Char → List (List Char)
  | [] => if cr then [['\r']] else [[]]
  | c :: cs =>
    if cr && c == '\n' then [] :: splitCrlf false cs
    else
      match splitCrlf (c == '\r') cs with
      | l :: ls => ((if cr then ['\r'] else []) ++ (if c == '\r' then l else c :: l)) :: ls
      | [] => []

/-- `content.includes("\r\n")`. (editors/code/src/command/workspace-folder-initialization.ts:183) -/
def includesCrlf : List Char → Bool
  | [] => false
  | c :: cs => (c == '\r' && cs.head? == some '\n') || includesCrlf cs

/-- `lines.join(newline)`. (editors/code/src/command/workspace-folder-initialization.ts:206) -/
def joinLines (nl : List Char) : List (List Char) → List Char
  | [] => []
  | [l] => l
  | l :: m :: ls => l ++ nl ++ joinLines nl (m :: ls)

/-- Patterns for `.Rbuildignore` (command/workspace-folder-initialization.ts:194). -/
def ignorePatterns : List (List Char) := ["^\\.vscode$".toList, "^[.]?air[.]toml$".toList]

/-- The lines with the missing patterns (command/workspace-folder-initialization.ts:196-203). -/
def addMissing : List (List Char) → List (List Char) → List (List Char)
  | [], lines => lines
  | p :: ps, lines => addMissing ps (if lines.contains p then lines else lines ++ [p])

/-- `updateRbuildignore` on the content of the file (command/workspace-folder-initialization.ts:166-210). `none`: nothing
is written. The file is UTF-8 without a byte order mark. -/
def updateRbuildignore (content : List Char) : Option (List Char) :=
  let crlf := includesCrlf content
  let nl := if crlf then ['\r', '\n'] else ['\n']
  let lines := if crlf then splitCrlf false content else splitLf content
  let lines := if lines.getLast? = some [] then lines.dropLast else lines
  if ignorePatterns.all lines.contains then none
  else some (joinLines nl (addMissing ignorePatterns lines) ++ nl)

/-- A section of `settings.json`: values by key, e.g. those of `[r]`.
(editors/code/src/command/workspace-folder-initialization.ts:135-164) -/
abbrev Section := String → Option String

/-- `{ ...config, key: value }`. (editors/code/src/command/workspace-folder-initialization.ts:143-164) -/
def Section.set (s : Section) (k v : String) : Section := fun k' => if k' = k then some v else s k'

/-- The files of a folder that the initialisation looks at; `r`, `quarto`: the sections `[r]` and `[quarto]` of the
settings of the folder. (editors/code/src/command/workspace-folder-initialization.ts:63-215) -/
structure Files where
  airToml : Option (List Char)
  dotAirToml : Option (List Char)
  vscode : Bool
  extensions : Option (List Char)
  r : Option Section
  quarto : Option Section
  rbuildignore : Option (List Char)

/-- The content of a new `extensions.json` (command/workspace-folder-initialization.ts:102-110). -/
def extensionsJson : List Char := "{\n    \"recommendations\": [\n        \"Posit.air-vscode\"\n    ]\n}\n".toList

/-- `createAirToml`, `createExtensionsJson`, `updateSettingsJson`, `updateRbuildignore`
(command/workspace-folder-initialization.ts:64-210). Values of settings are JSON texts; writing settings creates
`.vscode`. -/
def Files.initialize (x : Files) : Files where
  airToml := if x.airToml.isSome || x.dotAirToml.isSome then x.airToml else some []
  dotAirToml := x.dotAirToml
  vscode := true
  extensions := match x.extensions with | some e => some e | none => some extensionsJson
  r := some (((x.r.getD fun _ => none).set "editor.formatOnSave" "true").set
    "editor.defaultFormatter" "\"Posit.air-vscode\"")
  quarto := some (((x.quarto.getD fun _ => none).set "editor.formatOnSave" "true").set
    "editor.defaultFormatter" "\"quarto.quarto\"")
  rbuildignore := x.rbuildignore.map fun c => (updateRbuildignore c).getD c

/-! ## Configuration for the server (`lsp.ts`) -/

/-- An item of a `workspace/configuration` request; the empty string counts as nothing. (external type;
editors/code/src/lsp.ts:142-200) -/
structure Item where
  scope : Option String
  section_ : Option String
  deriving DecidableEq, Repr

/-- A document that is open. `uri`: the object `document.uri`, by its identity. (external type;
editors/code/src/lsp.ts:142-200) -/
structure Opened where
  uri : Nat
  url : String
  language : String
  deriving DecidableEq, Repr

/-- The middleware for one item (lsp.ts:149-187). `parsed`: the object `vscode.Uri.parse(item.scopeUri)`, which is
compared with `===`, so by identity. `lookup`: the value of a section for a document and its language. -/
def answerItem {V : Type} (docs : List Opened) (lookup : String → String → String → V) (parsed : Nat) (item : Item)
    (default : V) : V :=
  match item.section_, item.scope with
  | some s, some u =>
    if s = "" ∨ u = "" then default
    else
      match docs.find? (fun d => d.uri == parsed) with
      | none => default
      | some d => lookup u d.language s
  | _, _ => default

/-- The middleware (lsp.ts:140-192); `parsed`: the objects that are created for the items, `defaults`: the answer of the
client without the middleware. `none`: an error is passed on. -/
def answer {V : Type} (docs : List Opened) (lookup : String → String → String → V) (parsed : List Nat)
    (items : List Item) (defaults : Option (List V)) : Option (List V) :=
  defaults.map fun vs => (List.zip (List.zip parsed items) vs).map (fun x => answerItem docs lookup x.1.1 x.1.2 x.2) ++
    vs.drop (min parsed.length items.length)

/-! ## Options of editors (`notification/sync-file-settings.ts`) -/

/-- `FileFormatSettings`; `spaces`: `indent_style === "space"`.
(editors/code/src/notification/sync-file-settings.ts:14-21) -/
structure Format where
  spaces : Bool
  width : Nat
  deriving DecidableEq, Repr

/-- `vscode.TextEditorOptions`. (external type; editors/code/src/notification/sync-file-settings.ts:58-99) -/
structure Options where
  insertSpaces : Bool
  indentSize : Nat
  tabSize : Nat
  deriving DecidableEq, Repr

/-- `vscode.TextEditor`; `path`: `document.uri.path`. (external type;
editors/code/src/notification/sync-file-settings.ts:58-99) -/
structure TextEditor where
  path : Path
  options : Options
  deriving DecidableEq, Repr

/-- The state: `FileSettingsState.settings` and the editors by number; `active`: `activeTextEditor`.
(editors/code/src/notification/sync-file-settings.ts:23-43) -/
structure Editors where
  settings : Path → Option Format := fun _ => none
  editor : Nat → TextEditor
  active : Option Nat := none

/-- `apply` (sync-file-settings.ts:58-99); `tab`: the setting `editor.tabSize` for the document. -/
def applyFormat (settings : Path → Option Format) (tab : Path → Option Nat) (e : TextEditor) : TextEditor :=
  match settings e.path with
  | none => e
  | some f =>
    { e with options :=
      { insertSpaces := f.spaces, indentSize := f.width,
        tabSize := if f.spaces then f.width else (tab e.path).getD e.options.tabSize } }

/-- `apply` for the editor with the number `i` (editors/code/src/notification/sync-file-settings.ts:58-99). -/
def Editors.applyTo (tab : Path → Option Nat) (x : Editors) (i : Nat) : Editors :=
  { x with editor := fun j => if j = i then applyFormat x.settings tab (x.editor i) else x.editor j }

/-- `this.settings.set(normalizePath(url), format)` for all files, in order (sync-file-settings.ts:44-47). -/
def setAll (norm : String → Path) : List (String × Format) → (Path → Option Format) → Path → Option Format
  | [], m => m
  | (u, f) :: fs, m => setAll norm fs fun p => if p = norm u then some f else m p

/-- What happens: a notification of the server, or another editor becomes active.
(editors/code/src/notification/sync-file-settings.ts:31-57) -/
inductive Happening
  | notified (files : List (String × Format))
  | activated (i : Option Nat)

/-- `handleSettingsNotification` and the listener for the active editor (sync-file-settings.ts:31-57). -/
def Happening.run (norm : String → Path) (tab : Path → Option Nat) (x : Editors) : Happening → Editors
  | .notified files =>
    let x := { x with settings := setAll norm files fun _ => none }
    match x.active with
    | some i => x.applyTo tab i
    | none => x
  | .activated none => { x with active := none }
  | .activated (some i) => { x with active := some i }.applyTo tab i

/-! ## Values that the editor offers (`package.json`) -/

/-- The values of `air.logLevel` (package.json:62-68). -/
def offeredLogLevels : List String := ["error", "warning", "info", "debug", "trace"]

end Verif.Editor
