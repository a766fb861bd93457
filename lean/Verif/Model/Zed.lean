/-!
# The extension for Zed (`editors/zed/src/lib.rs`)

Which executable is started, and what is downloaded and removed. The Zed API and the file system are parameters.
-/

namespace Verif.Zed

/-- A path as the editor writes it (editors/zed/src/lib.rs:5-13). -/
abbrev Path := String

/-- `zed::Os`. (external; editors/zed/src/lib.rs:156-158) -/
inductive Os | mac | linux | windows
  deriving DecidableEq, Repr

/-- `zed::Architecture`. (external; editors/zed/src/lib.rs:151-153) -/
inductive Arch | aarch64 | x86 | x8664
  deriving DecidableEq, Repr

/-- `zed::DownloadedFileType`. (external; editors/zed/src/lib.rs:171-172) -/
inductive FileType | gzipTar | zip
  deriving DecidableEq, Repr

/-- `GithubReleaseDetails` (lib.rs:15-29). -/
structure Details where
  asset : String
  type : FileType
  dir : Path
  binary : Path
  deriving DecidableEq, Repr

/-- `GithubReleaseDetails::new` (lib.rs:143-189). -/
def Details.new (os : Os) (arch : Arch) (version : String) : Details :=
  let stem := "air-" ++ (match arch with | .aarch64 => "aarch64" | .x86 => "x86" | .x8664 => "x86_64") ++ "-" ++
    (match os with | .mac => "apple-darwin" | .linux => "unknown-linux-gnu" | .windows => "pc-windows-msvc")
  let dir := "air-" ++ version
  { asset := stem ++ "." ++ (match os with | .mac | .linux => "tar.gz" | .windows => "zip")
    type := match os with | .mac | .linux => .gzipTar | .windows => .zip
    dir
    binary := match os with | .mac | .linux => dir ++ "/" ++ stem ++ "/air" | .windows => dir ++ "/air.exe" }

/-- `zed::GithubRelease`: version, and assets with their URLs. (external; editors/zed/src/lib.rs:83-92) -/
structure Release where
  version : String
  assets : List (String × String)
  deriving DecidableEq, Repr

/-- What the choice depends on.
* `path`, `args`: the user's settings for the executable
* `which`: `worktree.which("air")`
* `isFile`: is there a file with this path?
* `latest`: `latest_github_release`, unless it fails
* `downloads`: whether `download_file` succeeds
* `entries`: the entries of the working directory after the download, unless they cannot be listed
(editors/zed/src/lib.rs:32-139) -/
structure Env where
  path : Option Path
  args : Option (List String)
  which : Option Path
  isFile : Path → Bool
  latest : Option Release
  os : Os
  arch : Arch
  downloads : Bool
  entries : Option (List String)

/-- What is done to the file system. (editors/zed/src/lib.rs:100-135) -/
inductive Effect
  | download (url : String) (dir : Path) (type : FileType)
  | remove (entry : String)
  deriving DecidableEq, Repr

/-- The result: the executable and the user's arguments (`AirBinary`), or an error; `cached_binary_path`; what is done.
(editors/zed/src/lib.rs:5-13, 32-139) -/
structure Outcome where
  binary : Option (Path × Option (List String))
  cached : Option Path
  effects : List Effect

/-- The download (lib.rs:79-138). -/
def fetch (e : Env) (cached : Option Path) : Outcome :=
  match e.latest with
  | none => ⟨none, cached, []⟩
  | some r =>
    let d := Details.new e.os e.arch r.version
    match r.assets.find? (fun a => a.1 == d.asset) with
    | none => ⟨none, cached, []⟩
    | some a =>
      if e.isFile d.binary then ⟨some (d.binary, e.args), some d.binary, []⟩
      else if !e.downloads then ⟨none, cached, [.download a.2 d.dir d.type]⟩
      else
        match e.entries with
        | none => ⟨none, cached, [.download a.2 d.dir d.type]⟩
        | some es =>
          ⟨some (d.binary, e.args), some d.binary,
            .download a.2 d.dir d.type :: (es.filter (fun x => x != d.dir)).map .remove⟩

/-- `language_server_binary` (lib.rs:32-139). -/
def languageServerBinary (e : Env) (cached : Option Path) : Outcome :=
  match e.path with
  | some p => ⟨some (p, e.args), cached, []⟩
  | none =>
    match e.which with
    | some p => ⟨some (p, e.args), cached, []⟩
    | none =>
      match cached with
      | some p => if e.isFile p then ⟨some (p, e.args), cached, []⟩ else fetch e cached
      | none => fetch e cached

/-- `language_server_command` (lib.rs:198-211): executable and arguments, or an error. -/
def command (e : Env) (cached : Option Path) : Option (Path × List String) :=
  (languageServerBinary e cached).binary.map fun b => (b.1, b.2.getD ["language-server"])

/-- The commands of a session, one for each start of the server, with all that is done on the way.
(editors/zed/src/lib.rs:198-211, called by the editor) -/
def runAll : List Env → Option Path → List (Option (Path × List String)) × List Effect
  | [], _ => ([], [])
  | e :: es, cached =>
    let o := languageServerBinary e cached
    let rest := runAll es o.cached
    (command e cached :: rest.1, o.effects ++ rest.2)

end Verif.Zed
