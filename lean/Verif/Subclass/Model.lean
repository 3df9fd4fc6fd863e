import Verif.Multisplit.Model
import Verif.RePart.Model
/-!
# Instances of subclasses of str and bytes (big/text.py)

A string is an object with a class: `str` or `bytes` itself, or a subclass. The functions are followed with regard to
which of Python's operations make a new string, which is a `str` or `bytes` proper, and which return an object that
was there before. The subclasses override no methods.
-/
namespace Big.Sub

/-- A string object: its class, `none` for `str` (or `bytes`) itself, and its text. For text.py. -/
structure Str (C α : Type) where
  cls : Option C
  text : List α
  deriving DecidableEq, Repr

variable {C α : Type} [DecidableEq C] [DecidableEq α]

/-- A string that an operation of Python's has made (a slice, a concatenation, a join, a piece that `re.split` returns):
its class is `str` or `bytes` itself, also if it is all of an instance of a subclass (CPython: `PyUnicode_Substring`,
`PyUnicode_Concat`, `_PyUnicode_JoinArray` and their like for bytes). For text.py. -/
def new (t : List α) : Str C α := ⟨none, t⟩

/-- `s[left_match.end(0):]` if there is a match (text.py:947-950). -/
def restOf (s : Str C α) : Option (List α × List α) → Str C α
  | some (_, rest) => new rest
  | none => s

/-- `s[:right_match.start(0)]` if there is a match (text.py:952-955). -/
def preOf (s : Str C α) : Option (List α × List α × List α) → Str C α
  | some (p, _, _) => new p
  | none => s

open Big.MS in
/-- multistrip (text.py:858-955): `s` is rebound only when a pattern has matched. -/
def multistrip (nl : α) (s : Str C α) (seps : List (Str C α)) (left right : Bool) : Except Err (Str C α) :=
  let ws := seps.map Str.text
  if ws = [] then .error .valueError
  else if [] ∈ ws then .error .valueError
  else if !(left || right) then .ok s                    -- text.py:939-940
  else
    let pat := sepRe ws false
    let s1 := if left then restOf s (match0 pat s.text) else s
    .ok (if right then preOf s1 (search (match0 (.seq pat (.look (atEnd nl)))) s1.text) else s1)

/-- `_multisplit_reversed` of a string (text.py:317-326): one character or none are returned as they are. -/
def reversed (s : Str C α) : Str C α := if s.text.length ≤ 1 then s else new s.text.reverse

/-- What multisplit yields. For text.py:1076-1092. -/
inductive Item (C α : Type) where
  | str (s : Str C α)
  | pair (a b : Str C α)
  deriving DecidableEq, Repr

/-- Every other element (text.py:1048-1050). -/
def evens : List (Str C α) → List (Str C α)
  | [] => []
  | [a] => [a]
  | a :: _ :: l => a :: evens l

/-- The PROGRESSIVE step (text.py:1019-1050). -/
def progressive (keep : MS.Keep) (maxsplit : Int) (l : List (Str C α)) : List (Str C α) :=
  let desired := 1 + 2 * maxsplit
  let last := MS.lastNonEmpty 0 (l.map Str.text)
  let l := if desired > (last : Int) + 2 then l.take (last + 1) else l
  if keep = .no then evens l else l

/-- The loop joining or pairing (text.py:1078-1092). -/
def pairUp (keep : MS.Keep) : List (Str C α) → List (Item C α)
  | a :: b :: l => (if keep = .asPairs then .pair a b else .str (new (a.text ++ b.text))) :: pairUp keep l
  | _ => []

/-- What is yielded from the pieces (text.py:1061-1092). -/
def emit (keep : MS.Keep) (l : List (Str C α)) : List (Item C α) :=
  match keep with
  | .no => l.map .str
  | .alternating => l.map .str
  | _ => pairUp keep (if l.length % 2 = 1 then l ++ [new []] else l)

/-- The generator (text.py:972-1092): with maxsplit 0 it yields the object `s`. -/
def msGen (cache : List (List α) → Option (List (List α))) (s : Str C α) (seps : List (Str C α)) (keep : MS.Keep)
    (maxsplit : Option Int) (reverse separate : Bool) (strip : MS.Strip) (reKeep : Bool) : List (Item C α) :=
  if maxsplit = some 0 then
    (if keep = .asPairs then [.pair s (new [])] else [.str s])
  else
    let n : Int := maxsplit.getD (-1)
    let reN : Int := if n = -1 then 0 else n
    let s' := if reverse then reversed s else s
    let ws := seps.map Str.text
    let ws' := if reverse then MS.revSeps cache ws else ws
    let l := (MS.reSplit (MS.match0 (MS.sepRe ws' separate)) reKeep reN s'.text).map new
    let l := if strip = .progressive then progressive keep n l else l
    emit keep (if reverse then (l.map reversed).reverse else l)

open Big.MS in
/-- multisplit (text.py:1098-1276). -/
def multisplit (nl : α) (cache : List (List α) → Option (List (List α))) (s : Str C α) (seps : List (Str C α))
    (keep : Keep) (maxsplit : Option Int) (rev separate : Bool) (strip : Strip) : Except Err (List (Item C α)) :=
  if seps.isEmpty then .error .valueError
  else if strip = .no then .ok (msGen cache s seps keep maxsplit rev separate strip (decide (keep ≠ .no)))
  else
    match multistrip nl s seps (stripSides strip maxsplit rev).1 (stripSides strip maxsplit rev).2 with
    | .error e => .error e
    | .ok s' =>
      .ok (msGen cache s' seps keep (if s'.text.isEmpty then some 0 else maxsplit) rev separate
        (if strip = .progressive ∧ maxsplit = some (-1) then .yes else strip)
        (decide (keep ≠ .no) || (decide (strip = .progressive) && decide (maxsplit ≠ some (-1)))))

/-- The strings in an item. For text.py:1076-1092. -/
def Item.parts : Item C α → List (Str C α)
  | .str s => [s]
  | .pair a b => [a, b]

/-- multipartition (text.py:1280-1345). -/
def multipartition (nl : α) (cache : List (List α) → Option (List (List α))) (s : Str C α) (seps : List (Str C α))
    (count : Int) (rev separate : Bool) : Except MS.Err (List (Str C α)) :=
  if count < 0 then .error .valueError
  else
    match multisplit nl cache s seps .alternating (some count) rev separate .no with
    | .error e => .error e
    | .ok items =>
      let result := (items.map Item.parts).flatten
      let ext := List.replicate (2 * count.toNat + 1 - result.length) (new [])
      .ok (if rev then ext ++ result else result ++ ext)

/-- `replacement.join(words)`. For text.py:1820, 1823. -/
def join (sep : Str C α) (words : List (List α)) : Str C α := new (MS.join sep.text words)

/-- normalize_whitespace (text.py:1758-1825): an all-space `s` gives the object `replacement`. -/
def normalize (cache : List (List α) → Option (List (List α))) (sp : α → Bool) (fast : Bool) (s : Str C α)
    (seps : List (Str C α)) (repl : Str C α) : Except MS.Err (Str C α) :=
  if [] ∈ seps.map Str.text then .error .valueError
  else if seps.isEmpty then .error .valueError
  else if s.text.isEmpty then .ok (new [])               -- text.py:1794-1795
  else if fast then                                      -- text.py:1807-1820
    if s.text.all sp then .ok repl
    else
      let words := MS.strSplit sp s.text
      let words := if (s.text.head?.map sp).getD false then [] :: words else words
      let words := if (s.text.getLast?.map sp).getD false then words ++ [[]] else words
      .ok (join repl words)
  else                                                   -- text.py:1822-1825
    .ok (join repl (((msGen cache s seps .no (some (-1)) false false .no false).map Item.parts).flatten.map Str.text))

/-! ### re_partition -/

/-- `s.partition(w)`: the objects before and after. If `w` is not there the first is `s` itself (CPython's
`stringlib/partition.h`). For text.py:444, 460. -/
def partition (s : Str C α) (w : List α) : Except RePart.Err (Str C α × Str C α) :=
  if w = [] then .error .valueError
  else match RePart.findSub w s.text with
    | some i => .ok (new (s.text.take i), new (s.text.drop (i + w.length)))
    | none => .ok (s, new [])

/-- `s.rpartition(w)`. For text.py:790, 808. -/
def rpartition (s : Str C α) (w : List α) : Except RePart.Err (Str C α × Str C α) :=
  if w = [] then .error .valueError
  else match RePart.rfindSub w s.text with
    | some i => .ok (new (s.text.take i), new (s.text.drop (i + w.length)))
    | none => .ok (new [], s)

/-- An element of the tuple that is returned. For text.py:451-461. -/
inductive Elem (C α : Type) where
  | text (s : Str C α)
  | found (m : Option RePart.Span)
  deriving DecidableEq

/-- The extension of the tuple (text.py:400-404, 460-461). -/
def missing (n : Nat) : List (Elem C α) := (List.replicate n [.found none, .text (new [])]).flatten

/-- The loop of re_partition (text.py:457-464). -/
def partLoop (s0 : List α) : Nat → List RePart.Span → Str C α → Except RePart.Err (List (Elem C α))
  | 0, _, s => .ok [.text s]
  | n + 1, [], s => .ok (.text s :: missing (n + 1))
  | n + 1, m :: ms, s =>
    match partition s (RePart.group s0 m) with
    | .error e => .error e
    | .ok (before, after) =>
      match partLoop s0 n ms after with
      | .error e => .error e
      | .ok r => .ok (.text before :: .found (some m) :: r)

/-- re_partition (text.py:376-464). -/
def rePartition (M : RePart.Matcher) (s : Str C α) (count : Int) : Except RePart.Err (List (Elem C α)) :=
  if count = 1 then
    match (RePart.finditer M).head? with
    | none => .ok [.text s, .found none, .text (new [])]
    | some m =>
      match partition s (RePart.group s.text m) with
      | .error e => .error e
      | .ok (before, after) => .ok [.text before, .found (some m), .text after]
  else if count = 0 then .ok [.text s]
  else if count < 0 then .error .valueError
  else partLoop s.text count.toNat (RePart.finditer M) s

/-- The loop of re_rpartition (text.py:800-817), its result in reverse. -/
def rpartLoop (s0 : List α) : Nat → List RePart.Span → Str C α → Except RePart.Err (List (Elem C α))
  | 0, _, s => .ok [.text s]
  | n + 1, [], s => .ok (.text s :: missing (n + 1))
  | n + 1, m :: ms, s =>
    match rpartition s (RePart.group s0 m) with
    | .error e => .error e
    | .ok (before, after) =>
      match rpartLoop s0 n ms before with
      | .error e => .error e
      | .ok r => .ok (.text after :: .found (some m) :: r)

/-- re_rpartition (text.py:723-817). -/
def reRpartition (M : RePart.Matcher) (s : Str C α) (count : Int) : Except RePart.Err (List (Elem C α)) :=
  if count = 1 then
    match RePart.reversedFinditer M with
    | .error e => .error e
    | .ok [] => .ok [.text (new []), .found none, .text s]
    | .ok (m :: _) =>
      match rpartition s (RePart.group s.text m) with
      | .error e => .error e
      | .ok (before, after) => .ok [.text before, .found (some m), .text after]
  else if count = 0 then .ok [.text s]
  else if count < 0 then .error .valueError
  else
    match RePart.reversedFinditer M with
    | .error e => .error e
    | .ok ms =>
      match rpartLoop s.text count.toNat ms s with
      | .error e => .error e
      | .ok r => .ok r.reverse

end Big.Sub
