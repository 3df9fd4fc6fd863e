import Verif.Multisplit.Tables2
/-!
# The arguments of multisplit and multistrip (big/text.py:888-937, 1217-1276)

Which exceptions bad arguments raise, and which separators are used. `Multisplit.Model` models what
happens then. Python's str and bytes are told apart here: `K` says which of them `s` is.
-/
namespace Big.MS

/-- Exceptions. For text.py. -/
inductive CallErr where
  | valueError | typeError
  deriving DecidableEq, Repr

/-- An element of an iterable of separators. For text.py:1250-1252. -/
inductive Elem where
  | str (t : List Char) | bytes (t : List UInt8) | other
  deriving DecidableEq, Repr

/-- What may be passed as separators. `coll` is a tuple, list, set or anything else that can be
iterated over again and again and is false if empty; `iter` is an iterator, such as a generator, which
is true and can be iterated over once; `plain` is anything else, with its truth value. For text.py:1217-1252. -/
inductive SepArg where
  | none | str (t : List Char) | bytes (t : List UInt8) | coll (l : List Elem) | iter (l : List Elem)
  | plain (truthy : Bool)

/-- What the code knows about the type of `s`: how to tell an element or an argument of that type, the
newline of `$`, the precalculated reversed separators, and the separators None stands for. For text.py:1250-1252. -/
structure Kind (α : Type) where
  nl : α
  cache : List (List α) → Option (List (List α))
  default : List (List α)
  elem : Elem → Option (List α)
  /-- `isinstance(separators, s_type)` -/
  text : SepArg → Option (List α)
  /-- separators is a str and s bytes, or the other way round -/
  foreign : SepArg → Bool

/-- s is a str. -/
def strKind : Kind Char where
  nl := '\n'
  cache := strCache
  default := strWhitespace
  elem | .str t => some t | _ => none
  text | .str t => some t | _ => none
  foreign | .bytes _ => true | _ => false

/-- s is bytes. -/
def bytesKind : Kind UInt8 where
  nl := 10
  cache := bytesCache
  default := bytesWhitespace
  elem | .bytes t => some t | _ => none
  text | .bytes t => some t | _ => none
  foreign | .str _ => true | _ => false

variable {α : Type} [DecidableEq α]

/-- `for o in separators: if not isinstance(o, s_type): raise TypeError` (text.py:1250-1252). -/
def checkElems (K : Kind α) : List Elem → Except CallErr (List (List α))
  | [] => .ok []
  | o :: l => match K.elem o with
    | none => .error .typeError
    | some t => (checkElems K l).map (t :: ·)

/-- The separators used, from text.py:1217-1252. An iterator has been used up by the check: nothing is
left of it when the pattern is made. A str is checked character by character (text.py:1233), a bytes
object is cut up by `_iterate_over_bytes` (text.py:67-74, 1225). -/
def usedSeps (K : Kind α) (a : SepArg) : Except CallErr (List (List α)) :=
  if K.foreign a then .error .typeError
  else match K.text a with
    | some t => if t.isEmpty then .error .valueError else .ok (t.map (fun c => [c]))
    | none => match a with
      | .none => .ok K.default
      | .coll l => if l.isEmpty then .error .valueError else checkElems K l
      | .iter l => (checkElems K l).map (fun _ => [])
      | .plain truthy => if truthy then .error .typeError else .error .valueError
      | _ => .error .typeError

/-- `re.split` (Python 3.7 and later) with a pattern that matches only the empty string: after the
first split, one more after each character, `lim` at most. -/
def splitEmptyFrom (keep : Bool) : Option Nat → List α → List (List α)
  | _, [] => [[]]
  | lim, c :: t =>
    if lim = some 0 then [c :: t]
    else [c] :: ((if keep then [[]] else []) ++ splitEmptyFrom keep (lim.map (· - 1)) t)

@[inherit_doc splitEmptyFrom]
def splitEmpty (keep : Bool) (maxsplit : Int) (s : List α) : List (List α) :=
  let lim := if maxsplit = 0 then none else some maxsplit.toNat
  if lim = some 0 then [s]
  else [] :: ((if keep then [[]] else []) ++ splitEmptyFrom keep (lim.map (· - 1)) s)

/-- `_multisplit` (text.py:972-1092) with no separators left: the pattern is empty. -/
def msGenEmpty (s : List α) (keep : Keep) (maxsplit : Option Int) (reverse : Bool) (strip : Strip)
    (reKeep : Bool) : List (Item α) :=
  if maxsplit = some 0 then (if keep = .asPairs then [.pair s []] else [.str s])
  else
    let n : Int := maxsplit.getD (-1)
    let l := splitEmpty reKeep (if n = -1 then 0 else n) (if reverse then s.reverse else s)
    let l := if strip = .progressive then progressive keep n l else l
    emit keep (if reverse then (l.map List.reverse).reverse else l)

/-- multisplit (text.py:1098-1276), with its checks. -/
def multisplitCall (K : Kind α) (s : List α) (a : SepArg) (keep : Keep) (maxsplit : Option Int)
    (reverse separate : Bool) (strip : Strip) : Except CallErr (List (Item α)) :=
  match usedSeps K a with
  | .error e => .error e
  | .ok [] =>
    let s' := if strip = .no then s else stripCore K.nl s []
      (stripSides strip maxsplit reverse).1 (stripSides strip maxsplit reverse).2
    let maxsplit' := if strip ≠ .no ∧ s' = [] then some 0 else maxsplit
    .ok (msGenEmpty s' keep maxsplit' reverse
      (if strip = .progressive ∧ maxsplit = some (-1) then .yes else strip)
      (decide (keep ≠ .no) || (decide (strip = .progressive) && decide (maxsplit ≠ some (-1)))))
  | .ok seps => (multisplit K.nl K.cache s seps keep maxsplit reverse separate strip).mapError
      (fun _ => .valueError)

/-- The checks of multistrip (text.py:888-935). Here the checked separators are kept in a list
(text.py:928-935), so an iterator is as good as a tuple; an iterator that yields nothing passes the
`not separators` test, and None is not allowed (it is false, hence ValueError). -/
def stripSeps (K : Kind α) (a : SepArg) : Except CallErr (List (List α)) :=
  if K.foreign a then .error .typeError
  else match K.text a with
    | some t => if t.isEmpty then .error .valueError else .ok (t.map (fun c => [c]))
    | none => match a with
      | .none => .error .valueError
      | .coll l => if l.isEmpty then .error .valueError else go l
      | .iter l => go l
      | .plain truthy => if truthy then .error .typeError else .error .valueError
      | _ => .error .typeError
where
  /-- `for o in separators:` (text.py:929-934): each element in turn is checked for both. -/
  go : List Elem → Except CallErr (List (List α))
    | [] => .ok []
    | o :: l => match K.elem o with
      | none => .error .typeError
      | some t => if t.isEmpty then .error .valueError else (go l).map (t :: ·)

/-- multistrip (text.py:858-955), with its checks. -/
def multistripCall (K : Kind α) (s : List α) (a : SepArg) (left right : Bool) :
    Except CallErr (List α) :=
  match stripSeps K a with
  | .error e => .error e
  | .ok seps => if !(left || right) then .ok s else .ok (stripCore K.nl s seps left right)

end Big.MS
