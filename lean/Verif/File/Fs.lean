/-!
# Model of the filesystem functions of big/file.py: safe_mkdir, safe_unlink, touch, pushd

A file system is a tree of directories and files. Symbolic links (LinkModel.lean has them), permissions, read-only and full
disks are not modelled here; other processes are, in RaceModel.lean. A path is the list of names from its last one up to the
root, so the parent of `n :: p` is `p` and the root is `[]`.
-/
namespace Big.File.Fs

/-- A component of a path. For file.py:224-226. -/
abbrev Name := String
/-- An absolute path without `.` and `..`, the last component first. For file.py:224-226. -/
abbrev Path := List Name

/-- What is at a path; files have contents and both have a modification time. For file.py:273. -/
inductive Entry where
  | file (content : List Nat) (mtime : Nat)
  | dir (mtime : Nat)
  deriving DecidableEq, Repr

/-- It is a directory. For file.py:224-276. -/
def Entry.isDir : Entry → Bool
  | .dir _ => true
  | _ => false
/-- It is a file. For file.py:224-226. -/
def Entry.isFile : Entry → Bool
  | .file .. => true
  | _ => false
/-- With another modification time (`os.utime`, file.py:273). -/
def Entry.setTime (t : Nat) : Entry → Entry
  | .file c _ => .file c t
  | .dir _ => .dir t

/-- A file tree: what is at each path (the operating system; nothing of file.py). -/
abbrev FS := Path → Option Entry

/-- A tree: the root is a directory, and everything is in a directory. -/
structure WF (fs : FS) : Prop where
  root : (fs []).any Entry.isDir = true
  parent : ∀ n p, fs (n :: p) ≠ none → (fs p).any Entry.isDir = true

/-- The tree with something else at one path. For file.py:224-226. -/
def FS.set (fs : FS) (p : Path) (e : Option Entry) : FS := fun q => if q = p then e else fs q

/-- Exceptions: those of the operating system, and others raised by the user's code. For file.py. -/
inductive Err where
  | fileExists | fileNotFound | notADirectory | isADirectory
  | user (n : Nat)
  deriving DecidableEq, Repr

/-- os.path.isfile. For file.py:224-226. -/
def isfile (fs : FS) (p : Path) : Bool := (fs p).any Entry.isFile
/-- os.path.isdir. For file.py:224-276. -/
def isdir (fs : FS) (p : Path) : Bool := (fs p).any Entry.isDir
/-- os.path.exists. For file.py:272-276. -/
def exist (fs : FS) (p : Path) : Bool := (fs p).isSome

/-- os.unlink: fails unless there is a file. For file.py:224-226. -/
def unlink (p : Path) (fs : FS) : Except Err FS :=
  match fs p with
  | none => .error .fileNotFound
  | some (.dir _) => .error .isADirectory
  | some (.file ..) => .ok (fs.set p none)

/-- What creating something in directory p needs. For file.py:272-276. -/
def checkParent (fs : FS) : Path → Option Err
  | [] => none
  | _ :: p => match fs p with
    | none => some .fileNotFound
    | some (.file ..) => some .notADirectory
    | some (.dir _) => none

/-- os.mkdir. For file.py:224-226. -/
def mkdir (now : Nat) (p : Path) (fs : FS) : Except Err FS :=
  if exist fs p then .error .fileExists
  else match checkParent fs p with
    | some e => .error e
    | none => .ok (fs.set p (some (.dir now)))

/-- Except for a result, go on with `f`. For file.py:224-226. -/
def bind {α β : Type} : Except Err α → (α → Except Err β) → Except Err β
  | .error e, _ => .error e
  | .ok a, f => f a

/-- `mkdir` with an OSError ignored if the directory exists (the end of os.makedirs with
exist_ok=True). For file.py:224-226. -/
def mkdirOk (now : Nat) (p : Path) (fs : FS) : Except Err FS :=
  match mkdir now p fs with
  | .ok fs' => .ok fs'
  | .error e => if isdir fs p then .ok fs else .error e

/-- os.makedirs(path, exist_ok=True), as in CPython's os.py: create the parent first if it does not
exist, then the directory. For file.py:224-226. -/
def makedirs (now : Nat) : Path → FS → Except Err FS
  | [], fs => mkdirOk now [] fs
  | n :: p, fs =>
    if exist fs p then mkdirOk now (n :: p) fs
    else bind (makedirs now p fs) (mkdirOk now (n :: p))

/-- safe_mkdir (file.py:224-226) -/
def safeMkdir (now : Nat) (p : Path) (fs : FS) : Except Err FS :=
  bind (if isfile fs p then unlink p fs else .ok fs) (makedirs now p)

/-- safe_unlink (file.py:233-234) -/
def safeUnlink (p : Path) (fs : FS) : Except Err FS :=
  if isfile fs p then unlink p fs else .ok fs

/-- os.utime(path): set the modification time to now. For file.py:272-276. -/
def utime (now : Nat) (p : Path) (fs : FS) : Except Err FS :=
  match fs p with
  | none => .error .fileNotFound
  | some e => .ok (fs.set p (some (e.setTime now)))

/-- open(path, "wb"): creates or empties a file. For file.py:272-276. -/
def openWb (now : Nat) (p : Path) (fs : FS) : Except Err FS :=
  match fs p with
  | some (.dir _) => .error .isADirectory
  | some (.file ..) => .ok (fs.set p (some (.file [] now)))
  | none => match checkParent fs p with
    | some e => .error e
    | none => .ok (fs.set p (some (.file [] now)))

/-- touch (file.py:272-276) -/
def touch (now : Nat) (p : Path) (fs : FS) : Except Err FS :=
  if exist fs p then utime now p fs else openWb now p fs

/-! ## pushd -/

/-- A path as written: absolute or relative, with names and "..". For file.py:224-226. -/
inductive Comp where
  | name (n : Name) | up
  deriving DecidableEq, Repr
/-- A path as it is written. For file.py:224-226. -/
structure WPath where
  absolute : Bool
  comps : List Comp

/-- Resolve the components of a path from a directory; every step must be made in a directory. For file.py:196-199. -/
def walk (fs : FS) : Path → List Comp → Option Path
  | p, [] => some p
  | p, .up :: cs => if isdir fs p then walk fs p.tail cs else none
  | p, .name n :: cs => if isdir fs p then walk fs (n :: p) cs else none

/-- The place a written path leads to, from the current directory (done by the operating system). For file.py:196-199. -/
def resolve (fs : FS) (cwd : Path) (w : WPath) : Option Path :=
  walk fs (if w.absolute then [] else cwd) w.comps

/-- A process: file tree, current directory, and the pushd objects made so far, as (path, cwd). For file.py:198-199. -/
structure Proc where
  fs : FS
  cwd : Path
  objs : List (WPath × Path)

/-- os.chdir to a resolved path. For file.py:198-199. -/
def chdirTo (p : Option Path) (s : Proc) : Option Err × Proc :=
  match p with
  | none => (some .notADirectory, s)
  | some p =>
    match s.fs p with
    | none => (some .fileNotFound, s)
    | some (.file ..) => (some .notADirectory, s)
    | some (.dir _) => (none, { s with cwd := p })

/-- os.chdir. For file.py:196-199. -/
def chdir (w : WPath) (s : Proc) : Option Err × Proc := chdirTo (resolve s.fs s.cwd w) s

/-- Programs with pushd: `new w` makes a pushd object, and the i-th object made is object i;
`block i body` is `with` that object. `fs f` is any change of the file tree. For file.py:193-199. -/
inductive Prog where
  | skip
  | raise (n : Nat)
  | chdir (w : WPath)
  | fs (f : FS → FS)
  | new (w : WPath)
  | block (i : Nat) (body : Prog)
  | seq (p q : Prog)
  | catch_ (p q : Prog)

/-- `__exit__` (file.py:198-199): chdir to the saved directory; the exception of the body goes on unless
chdir raises one. -/
def leave (cwd : Path) (r : Option Err × Proc) : Option Err × Proc :=
  match chdirTo (some cwd) r.2 with
  | (some e, s) => (some e, s)
  | (none, s) => (r.1, s)

/-- Run a program. `os.getcwd()` (file.py:195) raises if the current directory no longer exists. A `with`
whose `__enter__` (file.py:196-197) raises does not run its body or its `__exit__`. -/
def Prog.run : Prog → Proc → Option Err × Proc
  | .skip, s => (none, s)
  | .raise n, s => (some (.user n), s)
  | .chdir w, s => Fs.chdir w s
  | .fs f, s => (none, { s with fs := f s.fs })
  | .new w, s =>
    if isdir s.fs s.cwd then (none, { s with objs := s.objs ++ [(w, s.cwd)] })
    else (some .fileNotFound, s)
  | .block i body, s =>
    match s.objs[i]? with
    | none => (none, s)
    | some (w, cwd) =>
      match Fs.chdir w s with
      | (some e, s') => (some e, s')
      | (none, s') => leave cwd (body.run s')
  | .seq p q, s =>
    match p.run s with
    | (some e, s') => (some e, s')
    | (none, s') => q.run s'
  | .catch_ p q, s =>
    match p.run s with
    | (some _, s') => q.run s'
    | (none, s') => (none, s')

end Big.File.Fs
