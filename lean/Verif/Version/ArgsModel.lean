import Verif.Version.AccessModel
/-!
# Model of the arguments of `Version` (big/version.py:98-187) and of `__repr__` (312-313)

Not modelled: objects whose own `__eq__` or `__ne__` say that they are None, or a release level.
-/
namespace Big.Version

/-- Python objects, as far as the constructor tells them apart. bool is a kind of int. -/
inductive Py where
  | pyNone
  | int (n : Int)
  | str (s : List Char)
  | tuple (xs : List Py)
  /-- sys.version_info; it is a tuple as well, with a str in it -/
  | info (i : VersionInfo)
  | other (name : String)

/-- `x is None` (and `x == None`) For version.py:116-146. -/
def Py.isNone : Py → Bool
  | .pyNone => true
  | _ => false

/-- `x is None or (isinstance(x, int) and x >= 0)` (version.py:121-122, 135-136, 139, 142) -/
def Py.nonnegOrNone : Py → Bool
  | .pyNone => true
  | .int n => decide (0 ≤ n)
  | _ => false

/-- `isinstance(x, int)`. For version.py:124. -/
def Py.isInt : Py → Bool
  | .int _ => true
  | _ => false

/-- `isinstance(release, tuple) and release and all(isinstance(element, int) ...)` (version.py:124) -/
def Py.releaseOk : Py → Bool
  | .tuple xs => !xs.isEmpty && xs.all Py.isInt
  | _ => false

/-- `isinstance(element, str) and element and _re_is_valid_local_segment(element)` (version.py:145) -/
def Py.segmentOk : Py → Bool
  | .str s => !s.isEmpty && validSegment s
  | _ => false

/-- version.py:145 -/
def Py.localOk : Py → Bool
  | .pyNone => true
  | .tuple xs => !xs.isEmpty && xs.all Py.segmentOk
  | _ => false

/-- `'final' if release_level is None else release_level`, if it is an allowed value (version.py:127-131). -/
def Py.level : Py → Option Level
  | .pyNone => some .final
  | .str s =>
    if s = "alpha".toList then some .alpha
    else if s = "beta".toList then some .beta
    else if s = "rc".toList then some .rc
    else if s = "final".toList then some .final
    else none
  | _ => none

/-- The value of an int argument that has been checked; None if it is None. For version.py:116-146. -/
def Py.nat : Py → Option Nat
  | .int n => some n.toNat
  | _ => none

/-- The elements of a checked release. For version.py:116-146. -/
def Py.ints : Py → List Int
  | .tuple xs => xs.filterMap fun | .int n => some n | _ => none
  | _ => []

/-- The elements of a checked local; None if it is None. For version.py:116-146. -/
def Py.strs : Py → Option (List (List Char))
  | .tuple xs => some (xs.filterMap fun | .str s => some s | _ => none)
  | _ => none

/-- The keyword-only arguments. For version.py:116-146. -/
structure PyKw where
  epoch : Py := .pyNone
  release : Py := .pyNone
  level : Py := .pyNone
  serial : Py := .pyNone
  post : Py := .pyNone
  dev : Py := .pyNone
  loc : Py := .pyNone

/-- Construction from keywords (version.py:116-146), the checks in their order. -/
def fromKeywords (k : PyKw) : Except Err Ver :=
  if k.release.isNone then .error .valueError
  else if !k.epoch.nonnegOrNone then .error .valueError
  else if !k.release.releaseOk then .error .valueError
  else
    match k.level.level with
    | none => .error .valueError
    | some level =>
      if !k.serial.nonnegOrNone then .error .valueError
      else if !k.post.nonnegOrNone then .error .valueError
      else if !k.dev.nonnegOrNone then .error .valueError
      else if !k.loc.localOk then .error .valueError
      else .ok ⟨some (k.epoch.nat.getD 0), k.release.ints, level, some (k.serial.nat.getD 0), k.post.nat, k.dev.nat, k.loc.strs⟩

/-- `Version(s, **k)` (version.py:98-179). -/
def construct (s : Py) (k : PyKw) : Except Err Ver :=
  if s.isNone then fromKeywords k
  else if !(k.epoch.isNone && k.release.isNone && k.level.isNone && k.serial.isNone && k.post.isNone && k.dev.isNone &&
      k.loc.isNone) then .error .valueError
  else
    match s with
    | .info i => parse i.text
    | .str s => parse s
    | _ => .error .valueError

/-! ### repr -/

/-- `repr` of a str (CPython's unicode_repr): quotes chosen, backslash, quote and control characters escaped;
`esc` gives the text of a character that is not printable. For version.py:312-313. -/
def reprStr (printable : Char → Bool) (esc : Char → List Char) (s : List Char) : List Char :=
  let q := if s.contains '\'' && !s.contains '"' then '"' else '\''
  let one (c : Char) : List Char :=
    if c = q ∨ c = '\\' then ['\\', c]
    else if c = '\n' then ['\\', 'n'] else if c = '\r' then ['\\', 'r'] else if c = '\t' then ['\\', 't']
    else if printable c then [c] else esc c
  q :: (s.flatMap one) ++ [q]

/-- `__repr__` (version.py:312-313) -/
def Ver.repr (printable : Char → Bool) (esc : Char → List Char) (v : Ver) : Except Err (List Char) :=
  v.str.map fun s => "Version(".toList ++ reprStr printable esc s ++ [')']

end Big.Version
