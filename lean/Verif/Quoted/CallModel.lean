import Verif.Multisplit.ArgsModel
import Verif.Quoted.Model
/-!
# The arguments of split_quoted_strings (big/text.py:2018-2133), with types

Which exceptions bad arguments raise, and what the others stand for. `Quoted.Model` models what happens then.
-/
namespace Big.SQ
open Big.MS (Elem SepArg Kind CallErr)
variable {α : Type} [DecidableEq α]

/-- What may be passed: `coll` is a list, set or anything else with a length that can be iterated over again and again
and is false if empty; `iter` is an iterator, which is true, has no length and can be iterated over once; `plain` is
anything else, with its truth value. For text.py:1864-1868, 2023-2066. -/
inductive QArg where
  | none | str (t : List Char) | bytes (t : List UInt8) | tuple (l : List Elem) | coll (l : List Elem) | iter (l : List Elem)
  | plain (truthy : Bool)
  deriving DecidableEq

/-- `bool(a)`. For text.py:2031-2037, 2041-2047, 2057-2061, 2067-2071. -/
def QArg.truthy : QArg → Bool
  | .none => false
  | .str t => !t.isEmpty
  | .bytes t => !t.isEmpty
  | .tuple l => !l.isEmpty
  | .coll l => !l.isEmpty
  | .iter _ => true
  | .plain b => b

/-- What the code knows about the type of s (text.py:1864-1868, 2023-2066): which elements and arguments are of that type,
the default quotes and escape, and those of the other type. -/
structure QKind (α : Type) where
  elem : Elem → Option (List α)
  text : QArg → Option (List α)
  foreign : QArg → Bool
  quotes : List (List α)
  escape : List α
  foreignQuotes : QArg
  foreignEscape : QArg

/-- s is a str. -/
def strQ : QKind Char where
  elem | .str t => some t | _ => none
  text | .str t => some t | _ => none
  foreign | .bytes _ => true | _ => false
  quotes := [['"'], ['\'']]
  escape := ['\\']
  foreignQuotes := .tuple [.bytes [34], .bytes [39]]
  foreignEscape := .bytes [92]

/-- s is bytes. -/
def bytesQ : QKind UInt8 where
  elem | .bytes t => some t | _ => none
  text | .bytes t => some t | _ => none
  foreign | .str _ => true | _ => false
  quotes := [[34], [39]]
  escape := [92]
  foreignQuotes := .tuple [.str ['"'], .str ['\'']]
  foreignEscape := .str ['\\']

/-- `for q in quotes:` the type of each, and whether it is empty (text.py:2033-2037, 2043-2047, 2057-2061, 2067-2071). -/
def checkQuotes (Q : QKind α) : List Elem → Except CallErr (List (List α))
  | [] => .ok []
  | o :: l => match Q.elem o with
    | none => .error .typeError
    | some t => if t.isEmpty then .error .valueError else (checkQuotes Q l).map (t :: ·)

/-- The elements of an argument once it has been checked (text.py:2031-2037, 2041-2047, 2057-2061, 2067-2071). A str or
bytes object of the other type yields nothing of the right type. -/
def elementsOf (Q : QKind α) (a : QArg) : Except CallErr (List (List α)) :=
  match Q.text a with
  | some t => .ok (t.map (fun c => [c]))
  | none =>
    if Q.foreign a then (if a.truthy then .error .typeError else .ok [])
    else match a with
      | .tuple l => checkQuotes Q l
      | .coll l => checkQuotes Q l
      | .iter l => checkQuotes Q l
      | _ => .error .typeError

/-- Is it an iterator, which the checks use up, and which has no length? For text.py:2028-2037, 2054-2061, 2075. -/
def QArg.isIter : QArg → Bool
  | .iter _ => true
  | _ => false

/-- The quotes, before repeated ones are refused (text.py:2028-2037, 2054-2061, 2075); nothing is left of an iterator. -/
def quotesOf (Q : QKind α) (a : QArg) : Except CallErr (List (List α)) :=
  if a = .none ∨ a = Q.foreignQuotes then .ok Q.quotes
  else (elementsOf Q a).map (fun l => if a.isIter then [] else l)

/-- The multiline quotes (text.py:2020-2021, 2040-2047, 2064-2071, 2076). `set(multiline_quotes)` raises TypeError if that is
false but not iterable. -/
def multilineOf (Q : QKind α) (a : QArg) : Except CallErr (List (List α)) :=
  if a = .none then .ok []
  else (elementsOf Q a).map (fun l => if a.isIter then [] else l)

/-- The escape: right, or of another type and false, or of another type and true (text.py:2038-2039, 2062-2063). -/
inductive Escape (α : Type) where
  | right (t : List α) | falsy | wrong

@[inherit_doc Escape]
def escapeOf (Q : QKind α) (a : QArg) : Escape α :=
  if a = .none ∨ a = Q.foreignEscape then .right Q.escape
  else match Q.text a with
    | some t => .right t
    | none => if a.truthy then .wrong else .falsy

/-- The state (text.py:2081-2087). -/
def stateOf (Q : QKind α) (all : List (List α)) (a : QArg) : Except CallErr (List α) :=
  if a = .none ∨ a = .str [] ∨ a = .bytes [] then .ok []
  else match Q.text a with
    | some t => if all.contains t then .ok t else .error .valueError
    | none => .error .typeError

/-- Is the escape of the type of s? For text.py:1937-2133. -/
def Escape.isRight : Escape α → Bool
  | .right _ => true
  | _ => false

/-- The separators are made (text.py:2118-2133). An escape of another type, if true, raises TypeError when it is added to a
quote or when the separators are sorted (text.py:2123-2131); if false it is not used. -/
def startCall (E : Env α) (s : List α) (q ml : List (List α)) (st : List α) :
    Escape α → Except CallErr (List (Tuple α) × Option Err)
  | .wrong => .error .typeError
  | .falsy => (splitQuotedStrings E s q [] ml st).mapError (fun _ => .valueError)
  | .right t => (splitQuotedStrings E s q t ml st).mapError (fun _ => .valueError)

/-- Repeated quotes, and quotes in both (text.py:2089-2116): an iterator has no length. -/
def checkRepeats (quotes multiline : QArg) (q ml : List (List α)) : Option CallErr :=
  if quotes.isIter then some .typeError
  else if repeated q then some .valueError
  else if multiline.isIter then some .typeError
  else if repeated ml then some .valueError
  else if q.any (fun x => ml.contains x) then some .valueError
  else none

/-- What follows once both sets of quotes are known (text.py:2075-2133). -/
def finishCall (Q : QKind α) (E : Env α) (s : List α) (quotes multiline state : QArg) (e : Escape α)
    (q ml : List (List α)) : Except CallErr (List (Tuple α) × Option Err) :=
  if (q ++ ml).isEmpty then .error .valueError
  else match stateOf Q (q ++ ml) state with
    | .error x => .error x
    | .ok st => match checkRepeats quotes multiline q ml with
      | some x => .error x
      | none => startCall E s q ml st e

/-- split_quoted_strings (text.py:1937-2133), with its checks in their order. The escape is checked only if there are no
multiline quotes (text.py:2048, 2072). -/
def splitQuotedCall (Q : QKind α) (E : Env α) (s : List α) (quotes escape multiline state : QArg) :
    Except CallErr (List (Tuple α) × Option Err) :=
  match quotesOf Q quotes with
  | .error x => .error x
  | .ok q =>
    if !multiline.truthy && !(escapeOf Q escape).isRight then .error .typeError
    else match multilineOf Q multiline with
      | .error x => .error x
      | .ok ml => finishCall Q E s quotes multiline state (escapeOf Q escape) q ml

end Big.SQ
