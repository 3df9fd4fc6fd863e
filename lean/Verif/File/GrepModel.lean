import Verif.File.Text
/-!
# Model of fgrep and grep from the file's bytes on

Modelled: the choice of the mode, the check of `encoding`, reading in binary and in text mode (decoding, then the
translation of line breaks that `open(path, 'rt')` does), and the search. The file system, the codecs, `str.lower` and
the regular expression compiler are parameters.
-/
namespace Big.File

/-- Exceptions of fgrep and grep (file.py:50-187). -/
inductive GrepErr where
  | valueError | fileNotFound | decodeError | reError
  deriving DecidableEq, Repr

/-- What the functions use from Python and the system. For file.py:85, 90-95, 156, 161-167. -/
structure World where
  /-- the files -/
  read : String → Option (List UInt8)
  /-- the codec for the `encoding` argument -/
  decode : Option String → List UInt8 → Except GrepErr (List Char)
  /-- str.lower -/
  lower : List Char → List Char
  /-- re.compile(pattern, flags).search(·) is not None, for str and for bytes -/
  compileStr : List Char → Nat → Except GrepErr (List Char → Bool)
  compileBytes : List UInt8 → Nat → Except GrepErr (List UInt8 → Bool)

/-- The result: a list of lines, or with `enumerate` of (number, line). For file.py:82-108. -/
inductive Found (α : Type) where
  | numbered (l : List (Nat × List α))
  | plain (l : List (List α))

/-- The lines are str or bytes. For file.py:82-108. -/
inductive GrepResult where
  | str (r : Found Char)
  | bytes (r : Found UInt8)

/-- The `text` argument. For file.py:82-108. -/
inductive Text where
  | str (t : List Char)
  | bytes (t : List UInt8)

/-- bytes.lower in Python: the ASCII letters only. For file.py:82-108. -/
def lowerByte (b : UInt8) : UInt8 := if 65 ≤ b ∧ b ≤ 90 then b + 32 else b

/-- The translation of line breaks of a Python file opened with mode 'rt' (newline=None).
For file.py:88, 90-95, 159, 161-167. -/
def universal : List Char → List Char
  | [] => []
  | '\r' :: '\n' :: s => '\n' :: universal s
  | c :: s => (if c = '\r' then '\n' else c) :: universal s

/-- `f.read()` of a file opened with 'rb' (file.py:85, 90-95, 156, 161-167). -/
def readBytes (W : World) (path : String) : Except GrepErr (List UInt8) :=
  match W.read path with
  | none => .error .fileNotFound
  | some b => .ok b

/-- `f.read()` of a file opened with 'rt' (file.py:88, 90-95, 159, 161-167). -/
def readText (W : World) (path : String) (encoding : Option String) : Except GrepErr (List Char) :=
  match W.read path with
  | none => .error .fileNotFound
  | some b =>
    match W.decode encoding b with
    | .error e => .error e
    | .ok s => .ok (universal s)

/-- fgrep (file.py:82-108) -/
def fgrep (W : World) (path : String) (text : Text) (encoding : Option String) (enumerate ci : Bool) :
    Except GrepErr GrepResult :=
  match text with
  | .bytes t =>
    if encoding.isSome then .error .valueError
    else
      match readBytes W path with
      | .error e => .error e
      | .ok c => .ok (.bytes (
          if enumerate then .numbered (fgrepNumbered 10 (List.map lowerByte) t c ci)
          else .plain (fgrepPlain 10 (List.map lowerByte) t c ci)))
  | .str t =>
    match readText W path encoding with
    | .error e => .error e
    | .ok c => .ok (.str (
        if enumerate then .numbered (fgrepNumbered '\n' W.lower t c ci)
        else .plain (fgrepPlain '\n' W.lower t c ci)))

/-- The `pattern` argument: text to compile, or an re.Pattern, given by what its search finds. For file.py:151-152. -/
inductive Pattern where
  | str (p : List Char)
  | bytes (p : List UInt8)
  | compiledStr (search : List Char → Bool)
  | compiledBytes (search : List UInt8 → Bool)

/-- `re.compile(pattern, flags)` if it is not compiled (file.py:151-152): `flags` are not looked at otherwise. -/
def compiled (W : World) (flags : Nat) : Pattern → Except GrepErr ((List Char → Bool) ⊕ (List UInt8 → Bool))
  | .str p => (W.compileStr p flags).map .inl
  | .bytes p => (W.compileBytes p flags).map .inr
  | .compiledStr f => .ok (.inl f)
  | .compiledBytes f => .ok (.inr f)

/-- grep (file.py:151-173) -/
def grep (W : World) (path : String) (pattern : Pattern) (encoding : Option String) (enumerate : Bool) (flags : Nat) :
    Except GrepErr GrepResult :=
  match compiled W flags pattern with
  | .error e => .error e
  | .ok (.inr f) =>
    if encoding.isSome then .error .valueError
    else
      match readBytes W path with
      | .error e => .error e
      | .ok c => .ok (.bytes (if enumerate then .numbered (grepNumbered 10 f c) else .plain (grepPlain 10 f c)))
  | .ok (.inl f) =>
    match readText W path encoding with
    | .error e => .error e
    | .ok c => .ok (.str (if enumerate then .numbered (grepNumbered '\n' f c) else .plain (grepPlain '\n' f c)))

end Big.File
