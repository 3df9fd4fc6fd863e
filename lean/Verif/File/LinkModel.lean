import Verif.File.Fs
/-!
# Model of safe_mkdir, safe_unlink and touch with symbolic links (big/file.py:203-234, 263-276)

A file system has directories, files and symbolic links; paths are resolved as the Linux kernel does. `FS` gives the entry at
each location, a location being the list of names from the last one up to the root, without links. Not modelled: permissions,
read-only and full disks, "." in paths, paths that end in a slash, hard links, other processes (RaceModel.lean, without links).
-/
namespace Big.File.Links
open Big.File.Fs (Name Path Comp WPath)

/-- What is at a location. For file.py:273. -/
inductive Entry where
  | file (content : List Nat) (mtime : Nat)
  | dir (mtime : Nat)
  | link (target : WPath)

/-- It is a directory itself. For file.py:224-276. -/
def Entry.isDir : Entry → Bool
  | .dir _ => true
  | _ => false
/-- It is a file itself. For file.py:224-226. -/
def Entry.isFile : Entry → Bool
  | .file .. => true
  | _ => false
/-- With another modification time. For file.py:272-276. -/
def Entry.setTime (t : Nat) : Entry → Entry
  | .file c _ => .file c t
  | .dir _ => .dir t
  | .link w => .link w

/-- A file tree with links: what is at each path. -/
abbrev FS := Path → Option Entry

/-- The tree with something else at one path. For file.py:224-226. -/
def FS.set (fs : FS) (p : Path) (e : Option Entry) : FS := fun q => if q = p then e else fs q

/-- There is a directory at the location. For file.py:224-276. -/
def dirAt (fs : FS) (p : Path) : Bool := (fs p).any Entry.isDir

/-- Exceptions of the operating system. For file.py. -/
inductive Err where
  | fileExists | fileNotFound | notADirectory | isADirectory | tooManyLinks
  deriving DecidableEq, Repr

/-- The directory from which the target of a link in the directory `p` is resolved. For file.py:224-276. -/
def base (w : WPath) (p : Path) : Path := if w.absolute then [] else p

/-- Resolve the components of a path from the location `p`; `next` goes on after a link. The last component is not followed if
it is a link and `follow` is false. For file.py:224-276. -/
def walkIn (fs : FS) (follow : Bool) (next : Path → List Comp → Except Err Path) : Path → List Comp → Except Err Path
  | p, [] => .ok p
  | p, .up :: cs =>
    if dirAt fs p then walkIn fs follow next p.tail cs
    else .error (if (fs p).isSome then .notADirectory else .fileNotFound)
  | p, .name n :: cs =>
    if dirAt fs p then
      match fs (n :: p) with
      | some (.link w) => if cs.isEmpty && !follow then walkIn fs follow next (n :: p) cs else next (base w p) (w.comps ++ cs)
      | _ => walkIn fs follow next (n :: p) cs
    else .error (if (fs p).isSome then .notADirectory else .fileNotFound)

/-- Resolve, following at most as many links as the first argument says. For file.py:224-276. -/
def walk (fs : FS) (follow : Bool) : Nat → Path → List Comp → Except Err Path
  | 0 => walkIn fs follow (fun _ _ => .error .tooManyLinks)
  | lim + 1 => walkIn fs follow (walk fs follow lim)

/-- The location that a path stands for (Linux: at most 40 links); the empty path stands for none.
For file.py:224-276. -/
def resolve (fs : FS) (follow : Bool) (cwd : Path) (w : WPath) : Except Err Path :=
  if !w.absolute && w.comps.isEmpty then .error .fileNotFound
  else walk fs follow 40 (if w.absolute then [] else cwd) w.comps

/-- os.stat: the entry, links followed. For file.py:224-226. -/
def stat (fs : FS) (cwd : Path) (w : WPath) : Option Entry :=
  match resolve fs true cwd w with
  | .ok p => fs p
  | .error _ => none

/-- os.path.isfile. For file.py:224-226. -/
def isfile (fs : FS) (cwd : Path) (w : WPath) : Bool := (stat fs cwd w).any Entry.isFile
/-- os.path.isdir. For file.py:224-276. -/
def isdir (fs : FS) (cwd : Path) (w : WPath) : Bool := (stat fs cwd w).any Entry.isDir
/-- os.path.exists. For file.py:272-276. -/
def exist (fs : FS) (cwd : Path) (w : WPath) : Bool := (stat fs cwd w).isSome

/-- os.unlink: the entry itself, links not followed. For file.py:224-226. -/
def unlink (cwd : Path) (w : WPath) (fs : FS) : Option Err × FS :=
  match resolve fs false cwd w with
  | .error e => (some e, fs)
  | .ok p =>
    match fs p with
    | none => (some .fileNotFound, fs)
    | some (.dir _) => (some .isADirectory, fs)
    | some _ => (none, fs.set p none)

/-- os.mkdir: fails if there is any entry, a link that leads nowhere included. For file.py:224-226. -/
def mkdir (now : Nat) (cwd : Path) (w : WPath) (fs : FS) : Option Err × FS :=
  match resolve fs false cwd w with
  | .error e => (some e, fs)
  | .ok p => if (fs p).isSome then (some .fileExists, fs) else (none, fs.set p (some (.dir now)))

/-- The end of os.makedirs with exist_ok=True: an OSError is ignored if the path is a directory. For file.py:224-226. -/
def mkdirOk (now : Nat) (cwd : Path) (w : WPath) (fs : FS) : Option Err × FS :=
  match mkdir now cwd w fs with
  | (none, fs') => (none, fs')
  | (some e, fs') => if isdir fs' cwd w then (none, fs') else (some e, fs')

/-- os.makedirs(path, exist_ok=True), as in CPython's os.py; the components of the path in reverse order. A FileExistsError of
the recursive call is ignored. For file.py:224-226. -/
def makedirs (now : Nat) (cwd : Path) (abs : Bool) : List Comp → FS → Option Err × FS
  | [], fs => mkdirOk now cwd ⟨abs, []⟩ fs
  | c :: r, fs =>
    if r.isEmpty || exist fs cwd ⟨abs, r.reverse⟩ then mkdirOk now cwd ⟨abs, (c :: r).reverse⟩ fs
    else
      match makedirs now cwd abs r fs with
      | (none, fs') => mkdirOk now cwd ⟨abs, (c :: r).reverse⟩ fs'
      | (some .fileExists, fs') => mkdirOk now cwd ⟨abs, (c :: r).reverse⟩ fs'
      | (some e, fs') => (some e, fs')

/-- safe_mkdir (file.py:224-226) -/
def safeMkdir (now : Nat) (cwd : Path) (w : WPath) (fs : FS) : Option Err × FS :=
  if isfile fs cwd w then
    match unlink cwd w fs with
    | (none, fs') => makedirs now cwd w.absolute w.comps.reverse fs'
    | r => r
  else makedirs now cwd w.absolute w.comps.reverse fs

/-- safe_unlink (file.py:233-234) -/
def safeUnlink (cwd : Path) (w : WPath) (fs : FS) : Option Err × FS :=
  if isfile fs cwd w then unlink cwd w fs else (none, fs)

/-- os.utime(path), links followed. For file.py:272-276. -/
def utime (now : Nat) (cwd : Path) (w : WPath) (fs : FS) : Option Err × FS :=
  match resolve fs true cwd w with
  | .error e => (some e, fs)
  | .ok p =>
    match fs p with
    | none => (some .fileNotFound, fs)
    | some e => (none, fs.set p (some (e.setTime now)))

/-- open(path, "wb"), links followed: a link that leads to nothing makes the file there. For file.py:272-276. -/
def openWb (now : Nat) (cwd : Path) (w : WPath) (fs : FS) : Option Err × FS :=
  match resolve fs true cwd w with
  | .error e => (some e, fs)
  | .ok p =>
    match fs p with
    | none => (none, fs.set p (some (.file [] now)))
    | some (.file ..) => (none, fs.set p (some (.file [] now)))
    | some _ => (some .isADirectory, fs)

/-- touch (file.py:272-276) -/
def touch (now : Nat) (cwd : Path) (w : WPath) (fs : FS) : Option Err × FS :=
  if exist fs cwd w then utime now cwd w fs else openWb now cwd w fs

end Big.File.Links
