import Verif.File.Fs
/-!
# safe_mkdir, safe_unlink and touch, one system call at a time (big/file.py:204-276)

The model of Fs.lean with other processes, which may change the file tree in any way before each system call, and with
every state in between, where the program may be killed. Not modelled, as in Fs.lean: symbolic links, permissions.
-/
namespace Big.File.Fs

/-- What other processes do to the tree before the k-th system call. For file.py:229-234. -/
abbrev Others := Nat → FS → FS

/-- How many system calls there have been, the tree, and the tree before and after each of the calls.
For file.py:229-234. -/
structure Sys where
  calls : Nat
  fs : FS
  trace : List (FS × FS)

/-- A program: it returns or raises. For file.py:229-234. -/
abbrev Act (α : Type) := Sys → Except Err α × Sys

/-- One system call. For file.py:229-234. -/
def sys {α : Type} (o : Others) (f : FS → Except Err α × FS) : Act α := fun s =>
  let fs := o s.calls s.fs
  ((f fs).1, ⟨s.calls + 1, (f fs).2, s.trace ++ [(fs, (f fs).2)]⟩)

/-- A system call that looks at the tree. For file.py:229-234. -/
def look {α : Type} (f : FS → α) (fs : FS) : Except Err α × FS := (.ok (f fs), fs)

/-- A system call that changes the tree, or raises and does not. For file.py:229-234. -/
def change (f : FS → Except Err FS) (fs : FS) : Except Err Unit × FS :=
  match f fs with
  | .ok fs' => (.ok (), fs')
  | .error e => (.error e, fs)

/-- Return. For file.py:229-234. -/
def ret {α : Type} (a : α) : Act α := fun s => (.ok a, s)

/-- Raise. For file.py:204-226. -/
def throw_ {α : Type} (e : Err) : Act α := fun s => (.error e, s)

/-- One after the other. For file.py:229-234. -/
def andThen {α β : Type} (m : Act α) (f : α → Act β) : Act β := fun s =>
  match m s with
  | (.ok a, s) => f a s
  | (.error e, s) => (.error e, s)

/-- try and except. For file.py:204-226. -/
def handle {α : Type} (m : Act α) (f : Err → Act α) : Act α := fun s =>
  match m s with
  | (.ok a, s) => (.ok a, s)
  | (.error e, s) => f e s

/-- The end of `os.makedirs(path, exist_ok=True)` (CPython's os.py): `except OSError: if not isdir: raise`.
For file.py:204-226. -/
def mkdirOkC (o : Others) (now : Nat) (p : Path) : Act Unit :=
  handle (sys o (change (mkdir now p))) fun e =>
    andThen (sys o (look (isdir · p))) fun b => if b then ret () else throw_ e

/-- `except FileExistsError: pass`. For file.py:204-226. -/
def passExists (e : Err) : Act Unit := if e = .fileExists then ret () else throw_ e

/-- `os.makedirs(path, exist_ok=True)` (CPython's os.py). For file.py:204-226. -/
def makedirsC (o : Others) (now : Nat) : Path → Act Unit
  | [] => mkdirOkC o now []
  | n :: p =>
    andThen (sys o (look (exist · p))) fun b =>
      if b then mkdirOkC o now (n :: p)
      else andThen (handle (makedirsC o now p) passExists) fun _ => mkdirOkC o now (n :: p)

/-- `if os.path.isfile(path): os.unlink(path)`: safe_unlink (file.py:229-234) -/
def safeUnlinkC (o : Others) (p : Path) : Act Unit :=
  andThen (sys o (look (isfile · p))) fun b => if b then sys o (change (unlink p)) else ret ()

/-- safe_mkdir (file.py:204-226) -/
def safeMkdirC (o : Others) (now : Nat) (p : Path) : Act Unit :=
  andThen (safeUnlinkC o p) fun _ => makedirsC o now p

/-- touch (file.py:264-276) -/
def touchC (o : Others) (now : Nat) (p : Path) : Act Unit :=
  andThen (sys o (look (exist · p))) fun b =>
    if b then sys o (change (utime now p)) else sys o (change (openWb now p))

/-- Run from a tree. -/
def runC {α : Type} (m : Act α) (fs : FS) : Except Err α × Sys := m ⟨0, fs, []⟩

end Big.File.Fs
