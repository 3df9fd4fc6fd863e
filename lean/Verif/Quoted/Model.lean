import Verif.Multisplit.Model
/-!
# Model of `split_quoted_strings` (big/text.py:1828-2133)

Strings are lists of characters. The type checks (str against bytes) are in CallModel.lean. The generator run to
its end is the list of what it yielded and the exception that ended it, if any.
-/
namespace Big.SQ
open Big.MS (Item)

variable {α : Type} [DecidableEq α]

/-- Exceptions. For text.py. -/
inductive Err where
  | valueError | syntaxError
  deriving DecidableEq, Repr

/-- What Python says about strings: `nlines` is `len(x.splitlines())`, `laden` the character 'x',
`sort` is `list.sort` of the separators. For text.py:1907-1910, 1924-1927. -/
structure Env (α : Type) where
  nl : α
  nlines : List α → Nat
  laden : α
  sort : List (List α) → List (List α)
  cache : List (List α) → Option (List (List α))

/-- "unterminated quoted string": the text has more than one line (text.py:1907-1910, 1924-1927). -/
def multi (E : Env α) (text : List α) : Bool :=
  decide (E.nlines text > 1) || decide (E.nlines (text.getLast?.toList ++ [E.laden]) > 1)

/-- The test before raising SyntaxError (text.py:1907-1910). -/
def bad (E : Env α) (ml : List (List α)) (quote text : List α) : Bool :=
  !quote.isEmpty && !text.isEmpty && !ml.contains quote && multi E text

/-- A 3-tuple. For text.py:1920-1932. -/
abbrev Tuple (α : Type) := List α × List α × List α

/-- `if literal: buffer.append(literal)` (text.py:1886-1887). -/
def addLiteral (buffer : List (List α)) (literal : List α) : List (List α) :=
  if literal.isEmpty then buffer else buffer ++ [literal]

/-- After the loop (text.py:1920-1932). -/
def finish (E : Env α) (ml : List (List α)) (state quote : List α) (buffer : List (List α)) :
    List (Tuple α) × Option Err :=
  if buffer.isEmpty then ([], none)
  else
    let text := buffer.flatten
    if !text.isEmpty || !quote.isEmpty then
      if bad E ml quote text then ([], some .syntaxError)
      else ([(if state.isEmpty then quote else [], text, [])], none)
    else ([], none)

/-- The loop (text.py:1883-1918). -/
def loop (E : Env α) (all ml : List (List α)) :
    List α → List α → List (List α) → List (List α × List α) → List (Tuple α) × Option Err
  | state, quote, buffer, [] => finish E ml state quote buffer
  | state, quote, buffer, (literal, separator) :: rest =>
    let buffer := addLiteral buffer literal
    if quote.isEmpty then
      if !all.contains separator then loop E all ml state quote (buffer ++ [separator]) rest
      else if buffer.isEmpty then loop E all ml state separator [] rest
      else
        let r := loop E all ml state separator [] rest
        (([], buffer.flatten, []) :: r.1, r.2)
    else if separator ≠ quote then loop E all ml state quote (buffer ++ [separator]) rest
    else
      let text := buffer.flatten
      if bad E ml quote text then ([], some .syntaxError)
      else
        let r := loop E all ml [] [] [] rest
        ((if state.isEmpty then quote else [], text, quote) :: r.1, r.2)

/-- Does a list contain an element twice?  (text.py:2086-2107) -/
def repeated : List (List α) → Bool
  | [] => false
  | q :: l => l.contains q || repeated l

/-- The separators (text.py:2119-2128): all quotes, and the escaped `quotes` (the code's
`q[0:]` is all of q) and escaped escape. The escaped multiline quotes are not included. -/
def separators (E : Env α) (quotes ml : List (List α)) (escape : List α) : List (List α) :=
  E.sort (quotes ++ ml ++
    (if escape.isEmpty then [] else quotes.map (escape ++ ·) ++ [escape ++ escape]))

/-- The pair of an item of multisplit with keep=AS_PAIRS. For text.py:1937-2133. -/
def pairOf : Item α → List α × List α
  | .pair a b => (a, b)
  | .str a => (a, [])

/-- split_quoted_strings (text.py:1937-2133). -/
def splitQuotedStrings (E : Env α) (s : List α) (quotes : List (List α)) (escape : List α)
    (ml : List (List α)) (state : List α) : Except Err (List (Tuple α) × Option Err) :=
  if quotes.any List.isEmpty || ml.any List.isEmpty then .error .valueError
  else if (quotes ++ ml).isEmpty then .error .valueError
  else if !state.isEmpty && !(quotes ++ ml).contains state then .error .valueError
  else if repeated quotes || repeated ml then .error .valueError
  else if quotes.any (fun q => ml.contains q) then .error .valueError
  else
    match Big.MS.multisplit E.nl E.cache s (separators E quotes ml escape) .asPairs (some (-1)) false
        true .no with
    | .error _ => .error .valueError
    | .ok items => .ok (loop E (quotes ++ ml) ml state state [] (items.map pairOf))

end Big.SQ
