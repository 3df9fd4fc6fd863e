/-!
# What Python's str.split(sep), rsplit(sep), splitlines, partition and rpartition do

Direct definitions from the Python documentation; nothing here mentions multisplit.
-/
namespace Big.MS.PyStr

variable {α : Type} [DecidableEq α]

/-- The text before and after the leftmost occurrence of `sep`. -/
def find (sep : List α) : List α → Option (List α × List α)
  | [] => if sep.isEmpty then some ([], []) else none
  | c :: t =>
    if sep.isPrefixOf (c :: t) then some ([], (c :: t).drop sep.length)
    else (find sep t).map (fun x => (c :: x.1, x.2))

/-- The text before and after the rightmost occurrence of `sep`. -/
def rfind (sep : List α) : List α → Option (List α × List α)
  | [] => if sep.isEmpty then some ([], []) else none
  | c :: t =>
    match rfind sep t with
    | some x => some (c :: x.1, x.2)
    | none => if sep.isPrefixOf (c :: t) then some ([], (c :: t).drop sep.length) else none

/-- `s.split(sep, n)` for `n ≥ 0`: split at the leftmost occurrence, at most `n` times. -/
def splitN (sep : List α) : Nat → List α → List (List α)
  | 0, s => [s]
  | n + 1, s =>
    match find sep s with
    | none => [s]
    | some (a, b) => a :: splitN sep n b

/-- `s.rsplit(sep, n)` for `n ≥ 0`: split at the rightmost occurrence, at most `n` times. -/
def rsplitN (sep : List α) : Nat → List α → List (List α)
  | 0, s => [s]
  | n + 1, s =>
    match rfind sep s with
    | none => [s]
    | some (a, b) => rsplitN sep n a ++ [b]

/-- `s.split(sep, maxsplit)`: a negative maxsplit means no limit, and a string of length `k` holds at
most `k` disjoint non-empty strings. -/
def split (s sep : List α) (maxsplit : Int) : List (List α) :=
  splitN sep (if maxsplit < 0 then s.length else maxsplit.toNat) s

/-- `s.rsplit(sep, maxsplit)`. -/
def rsplit (s sep : List α) (maxsplit : Int) : List (List α) :=
  rsplitN sep (if maxsplit < 0 then s.length else maxsplit.toNat) s

/-- `s.partition(sep)`, `sep` not empty. -/
def partition (s sep : List α) : List (List α) :=
  match find sep s with
  | none => [s, [], []]
  | some (a, b) => [a, sep, b]

/-- `s.rpartition(sep)`, `sep` not empty. -/
def rpartition (s sep : List α) : List (List α) :=
  match rfind sep s with
  | none => [[], [], s]
  | some (a, b) => [a, sep, b]

/-- The line boundaries of str.splitlines, from the table in Python's documentation (besides the pair
`\r\n`). -/
def isBreak (c : Char) : Bool :=
  decide (c.toNat ∈ [0x0a, 0x0d, 0x0b, 0x0c, 0x1c, 0x1d, 0x1e, 0x85, 0x2028, 0x2029])

/-- Put a character before the first line. -/
def onFirst (c : Char) : List (List Char) → List (List Char)
  | [] => [[c]]
  | l :: ls => (c :: l) :: ls

/-- `s.splitlines(keepends)`. -/
def splitlines (keepends : Bool) : List Char → List (List Char)
  | [] => []
  | [c] => if isBreak c then [if keepends then [c] else []] else [[c]]
  | c :: d :: t =>
    if c = '\r' ∧ d = '\n' then (if keepends then ['\r', '\n'] else []) :: splitlines keepends t
    else if isBreak c then (if keepends then [c] else []) :: splitlines keepends (d :: t)
    else onFirst c (splitlines keepends (d :: t))

example : splitlines false "a\r\n\nb\rc\n".toList = ["a".toList, [], "b".toList, "c".toList] := by
  decide +kernel
example : splitlines true "a\r\n\nb".toList = ["a\r\n".toList, "\n".toList, "b".toList] := by
  decide +kernel
example : split "a,,b,".toList ",".toList (-1) = ["a".toList, [], "b".toList, []] := by decide +kernel
example : rsplit "a,b,c".toList ",".toList 1 = ["a,b".toList, "c".toList] := by decide +kernel
example : rsplit "xaaa".toList "aa".toList (-1) = ["xa".toList, []] := by decide +kernel
example : split "xaaa".toList "aa".toList (-1) = ["x".toList, ['a']] := by decide +kernel

end Big.MS.PyStr
