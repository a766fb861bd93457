import Verif.Model.Paths

/-!
# What a path means to the operating system
-/

namespace Verif.Paths

/-- A name that can stand in a directory. -/
def Clean (s : Name) : Prop := s ≠ [] ∧ s ≠ ['.'] ∧ s ≠ ['.', '.'] ∧ '/' ∉ s

/-- What a directory has under a name: a file or directory, or a symbolic link with a path. -/
inductive Entry | node (n : Nat) | link (target : List Char)
  deriving DecidableEq, Repr

/-- A file system; files and directories are numbers. -/
structure Fs where
  root : Nat
  isDir : Nat → Bool
  parent : Nat → Nat
  entry : Nat → Name → Option Entry

/-- Directories know their parents; only directories have entries. -/
structure Fs.Ok (fs : Fs) : Prop where
  root_dir : fs.isDir fs.root = true
  root_parent : fs.parent fs.root = fs.root
  parents : ∀ n s k, fs.entry n s = some (.node k) → fs.isDir k = true → fs.parent k = n
  dirs : ∀ n s e, fs.entry n s = some e → fs.isDir n = true

/-- Where a path starts that is used in directory `n`. -/
def start (fs : Fs) (n : Nat) (p : List Char) : Nat := if p.head? = some '/' then fs.root else n

/-- The operating system follows the parts of a path, and the targets of symbolic links. -/
inductive Walks (fs : Fs) : Nat → List Name → Nat → Prop
  | nil (n : Nat) : Walks fs n [] n
  | stay {n m : Nat} {s : Name} {ps : List Name} (hs : s = [] ∨ s = ['.']) (hd : fs.isDir n = true) (h : Walks fs n ps m) :
    Walks fs n (s :: ps) m
  | up {n m : Nat} {ps : List Name} (hd : fs.isDir n = true) (h : Walks fs (fs.parent n) ps m) :
    Walks fs n (['.', '.'] :: ps) m
  | name {n k m : Nat} {s : Name} {ps : List Name} (hs : Clean s) (he : fs.entry n s = some (.node k)) (h : Walks fs k ps m) :
    Walks fs n (s :: ps) m
  | link {n k m : Nat} {s : Name} {t : List Char} {ps : List Name} (hs : Clean s) (he : fs.entry n s = some (.link t))
    (ht : Walks fs (start fs n t) (splitSlash [] t) k) (h : Walks fs k ps m) : Walks fs n (s :: ps) m

/-- The same without symbolic links. -/
inductive Straight (fs : Fs) : Nat → List Name → Nat → Prop
  | nil (n : Nat) : Straight fs n [] n
  | stay {n m : Nat} {s : Name} {ps : List Name} (hs : s = [] ∨ s = ['.']) (hd : fs.isDir n = true)
    (h : Straight fs n ps m) : Straight fs n (s :: ps) m
  | up {n m : Nat} {ps : List Name} (hd : fs.isDir n = true) (h : Straight fs (fs.parent n) ps m) :
    Straight fs n (['.', '.'] :: ps) m
  | name {n k m : Nat} {s : Name} {ps : List Name} (hs : Clean s) (he : fs.entry n s = some (.node k))
    (h : Straight fs k ps m) : Straight fs n (s :: ps) m

/-- The path `p`, used in directory `n`, names `m`. -/
def Opens (fs : Fs) (n : Nat) (p : List Char) (m : Nat) : Prop := Walks fs (start fs n p) (splitSlash [] p) m

end Verif.Paths
