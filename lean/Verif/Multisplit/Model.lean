import Verif.Regex.First
/-!
# Model of `multistrip`, `multisplit`, `multipartition`, `normalize_whitespace` (big/text.py)

A `str` (or `bytes`) is a `List α`. The regular expressions the code builds are built here too, and
run by the engine of `Verif.Regex.Basic`. Model values are typed; the
type checks (str against bytes) are in Multisplit/ArgsModel.lean. `re.escape` and `_re_quote` (text.py:361-373) produce a pattern matching exactly
the literal text, which is `lit`.
-/
namespace Big.MS
open Big.Rx

variable {α : Type} [DecidableEq α]

/-- Exceptions. For text.py. -/
inductive Err where
  | valueError
  deriving DecidableEq, Repr

deriving instance DecidableEq for Except

/-- `_re_quote(s)` (text.py:361-373): the pattern of a literal text. -/
def lit : List α → Rx α
  | [] => .eps
  | c :: w => .seq (.cls (fun x => decide (x = c))) (lit w)

/-- `pipe.join(...)` (text.py:838). -/
def alts : List (List α) → Rx α
  | [] => .eps
  | [w] => lit w
  | w :: v :: ws => .alt (lit w) (alts (v :: ws))

/-- Put `w` before the first string that is not longer. For text.py:836-837. -/
def insertSep (w : List α) : List (List α) → List (List α)
  | [] => [w]
  | v :: l => if v.length ≤ w.length then w :: v :: l else v :: insertSep w l

/-- `separators.sort(key=lambda o: -len(o))` (text.py:836-837): the longest first, stable. -/
def sortSeps : List (List α) → List (List α)
  | [] => []
  | w :: l => insertSep w (sortSeps l)

/-- `__separators_to_re` (text.py:819-843), without the capturing group of `keep`, which is
modelled by `reSplit` returning the matched text. -/
def sepRe (seps : List (List α)) (separate : Bool) : Rx α :=
  if separate then alts (sortSeps seps) else .plus (alts (sortSeps seps))

/-- `pattern.match` at the start of `s`: the text matched and the text after it. For text.py:939-955. -/
def match0 (r : Rx α) (s : List α) : Option (List α × List α) :=
  (r.matchStart s).map (fun x => (s.take (s.length - x.2.length), x.2))

/-- `re.search`: the text before the leftmost match, the match, the text after. For text.py:939-955. -/
def search (mt : List α → Option (List α × List α)) : List α → Option (List α × List α × List α)
  | [] => (mt []).map (fun x => ([], x.1, x.2))
  | c :: s =>
    match mt (c :: s) with
    | some x => some ([], x.1, x.2)
    | none => (search mt s).map (fun x => (c :: x.1, x.2.1, x.2.2))

/-- The loop of `re.split`: `lim` is the number of splits still allowed (`none`: no limit). The first
argument bounds the number of rounds. Patterns matching the empty string are not modelled (big's
never do, its separators being non-empty). For text.py:972-1092. -/
def splitLoop (mt : List α → Option (List α × List α)) (keep : Bool) :
    Nat → Option Nat → List α → List (List α)
  | 0, _, s => [s]
  | f + 1, lim, s =>
    if lim = some 0 then [s]
    else
      match search mt s with
      | none => [s]
      | some (p, m, rest) =>
        p :: ((if keep then [m] else []) ++ splitLoop mt keep f (lim.map (· - 1)) rest)

/-- `re.split(pattern, s, maxsplit)`, with the pattern in a capturing group if `keep`: zero means no
limit, a negative number means no split. For text.py:972-1092. -/
def reSplit (mt : List α → Option (List α × List α)) (keep : Bool) (maxsplit : Int) (s : List α) :
    List (List α) :=
  splitLoop mt keep (s.length + 1) (if maxsplit = 0 then none else some maxsplit.toNat) s

/-- `$` without MULTILINE: the end of the text, or before a newline that ends it. For text.py:939-955. -/
def atEnd (nl : α) (s : List α) : Bool := decide (s = [] ∨ s = [nl])

/-- `s[left_match.end(0):]` if there is a match, else `s` (text.py:944-947). -/
def restOr (s : List α) : Option (List α × List α) → List α
  | some (_, rest) => rest
  | none => s

/-- `s[:right_match.start(0)]` if there is a match, else `s` (text.py:949-952). -/
def preOr (s : List α) : Option (List α × List α × List α) → List α
  | some (p, _, _) => p
  | none => s

/-- The stripping part of multistrip, separators already checked (text.py:939-955). -/
def stripCore (nl : α) (s : List α) (seps : List (List α)) (left right : Bool) : List α :=
  let pat := sepRe seps false
  let s1 := if left then restOr s (match0 pat s) else s
  if right then preOr s1 (search (match0 (.seq pat (.look (atEnd nl)))) s1) else s1

/-- multistrip (text.py:858-955). -/
def multistrip (nl : α) (s : List α) (seps : List (List α)) (left right : Bool) :
    Except Err (List α) :=
  if seps = [] then .error .valueError
  else if [] ∈ seps then .error .valueError
  else if !(left || right) then .ok s
  else .ok (stripCore nl s seps left right)

/-- The values of `keep`. For text.py:1019-1050. -/
inductive Keep where
  | no | yes | alternating | asPairs
  deriving DecidableEq, Repr

/-- The values of `strip`. For text.py:972-1092. -/
inductive Strip where
  | no | yes | left | right | progressive
  deriving DecidableEq, Repr

/-- What multisplit yields: strings, or 2-tuples of strings. For text.py:1082-1092. -/
inductive Item (α : Type) where
  | str (s : List α)
  | pair (a b : List α)
  deriving DecidableEq, Repr

/-- Elements with an even index, `for i in range(len(l) - 2, 0, -2): del l[i]` on a list of odd
length (text.py:1048-1050). -/
def evens : List (List α) → List (List α)
  | [] => []
  | [a] => [a]
  | a :: _ :: l => a :: evens l

/-- `last_non_empty_nonsep` (text.py:1034-1040): the largest even index, above 0, of a non-empty
element, else 0. -/
def lastNonEmpty : Nat → List (List α) → Nat
  | i, a :: _ :: l =>
    let r := lastNonEmpty (i + 2) l
    if r ≠ 0 then r else if a ≠ [] then i else 0
  | i, [a] => if a ≠ [] then i else 0
  | _, [] => 0

/-- The PROGRESSIVE step (text.py:1019-1050). `l` alternates and has odd length. -/
def progressive (keep : Keep) (maxsplit : Int) (l : List (List α)) : List (List α) :=
  let desired := 1 + 2 * maxsplit
  let last := lastNonEmpty 0 l
  let l := if desired > (last : Int) + 2 then l.take (last + 1) else l
  if keep = .no then evens l else l

/-- The loop joining or pairing strings with separators (text.py:1082-1092), on a list of even
length. -/
def pairUp (keep : Keep) : List (List α) → List (Item α)
  | a :: b :: l => (if keep = .asPairs then .pair a b else .str (a ++ b)) :: pairUp keep l
  | _ => []

/-- Reversed separators (text.py:999-1010): the precalculated ones of `_reversed_builtin_separators`
if any, else each reversed by `_multisplit_reversed` (text.py:317-328). -/
def revSeps (cache : List (List α) → Option (List (List α))) (seps : List (List α)) :
    List (List α) :=
  match cache seps with
  | some r => r
  | none => seps.map List.reverse

/-- What the generator yields from the list of pieces in order (text.py:1061-1092). -/
def emit (keep : Keep) (l : List (List α)) : List (Item α) :=
  match keep with
  | .no => l.map .str
  | .alternating => l.map .str
  | _ => pairUp keep (if l.length % 2 = 1 then l ++ [[]] else l)

/-- The generator `_multisplit` (text.py:972-1092). In the code the reversed list is popped from
its end; here it is turned around. -/
def msGen (cache : List (List α) → Option (List (List α))) (s : List α) (seps : List (List α))
    (keep : Keep) (maxsplit : Option Int) (reverse separate : Bool) (strip : Strip)
    (reKeep : Bool) : List (Item α) :=
  if maxsplit = some 0 then
    (if keep = .asPairs then [.pair s []] else [.str s])
  else
    let n : Int := maxsplit.getD (-1)
    let reN : Int := if n = -1 then 0 else n
    let s' := if reverse then s.reverse else s
    let seps' := if reverse then revSeps cache seps else seps
    let l := reSplit (match0 (sepRe seps' separate)) reKeep reN s'
    let l := if strip = .progressive then progressive keep n l else l
    emit keep (if reverse then (l.map List.reverse).reverse else l)

/-- Arguments of multisplit that the strip step computes (text.py:1253-1272). -/
def stripSides (strip : Strip) (maxsplit : Option Int) (reverse : Bool) : Bool × Bool :=
  match strip with
  | .progressive => if maxsplit = some (-1) then (true, true) else (!reverse, reverse)
  | s => (decide (s ≠ .right), decide (s ≠ .left))

/-- multisplit (text.py:1098-1276), `separators` given. The generator is run to its end. `maxsplit`
is an integer or None. -/
def multisplit (nl : α) (cache : List (List α) → Option (List (List α))) (s : List α)
    (seps : List (List α)) (keep : Keep := .no) (maxsplit : Option Int := some (-1))
    (reverse : Bool := false) (separate : Bool := false) (strip : Strip := .no) :
    Except Err (List (Item α)) :=
  if seps = [] then .error .valueError
  else if strip = .no then
    .ok (msGen cache s seps keep maxsplit reverse separate strip (decide (keep ≠ .no)))
  else
    match multistrip nl s seps (stripSides strip maxsplit reverse).1
        (stripSides strip maxsplit reverse).2 with
    | .error e => .error e
    | .ok s' =>
      .ok (msGen cache s' seps keep (if s' = [] then some 0 else maxsplit) reverse separate
        (if strip = .progressive ∧ maxsplit = some (-1) then .yes else strip)
        (decide (keep ≠ .no) || (decide (strip = .progressive) && decide (maxsplit ≠ some (-1)))))

/-- The string of an item that is not a pair. For text.py:1280-1345. -/
def Item.get : Item α → List α
  | .str s => s
  | .pair a b => a ++ b

/-- multipartition (text.py:1280-1345). -/
def multipartition (nl : α) (cache : List (List α) → Option (List (List α))) (s : List α)
    (seps : List (List α)) (count : Int := 1) (reverse : Bool := false) (separate : Bool := true) :
    Except Err (List (List α)) :=
  if count < 0 then .error .valueError
  else
    match multisplit nl cache s seps .alternating (some count) reverse separate .no with
    | .error e => .error e
    | .ok items =>
      let result := items.map Item.get
      let ext := List.replicate (2 * count.toNat + 1 - result.length) []
      .ok (if reverse then ext ++ result else result ++ ext)

/-- multirpartition (text.py:1347-1349). -/
def multirpartition (nl : α) (cache : List (List α) → Option (List (List α))) (s : List α)
    (seps : List (List α)) (count : Int := 1) (reverse : Bool := false) (separate : Bool := true) :
    Except Err (List (List α)) :=
  multipartition nl cache s seps count (!reverse) separate

/-! ### normalize_whitespace -/

/-- Put the non-space character `c` before the string `s` whose words are `ws`: it starts a word, or
continues the first word if `s` starts with one. For text.py:1811-1820. -/
def addChar (sp : α → Bool) (c : α) : List α → List (List α) → List (List α)
  | d :: _, w :: ws => if sp d then [c] :: w :: ws else (c :: w) :: ws
  | _, ws => [c] :: ws

/-- `str.split()` with no arguments (Python's): the maximal runs of non-space characters. For text.py:1811-1820. -/
def strSplit (sp : α → Bool) : List α → List (List α)
  | [] => []
  | c :: s => if sp c then strSplit sp s else addChar sp c s (strSplit sp s)

/-- `sep.join(words)`. For text.py:1811-1820. -/
def join (sep : List α) : List (List α) → List α
  | [] => []
  | [w] => w
  | w :: v :: ws => w ++ sep ++ join sep (v :: ws)

/-- The str fast path (text.py:1811-1820); `sp` is `str.isspace` of a character. -/
def normFast (sp : α → Bool) (repl s : List α) : List α :=
  if s.all sp then repl      -- `if not s.strip()`
  else
    let words := strSplit sp s
    let words := if (s.head?.map sp).getD false then [] :: words else words
    let words := if (s.getLast?.map sp).getD false then words ++ [[]] else words
    join repl words

/-- The general path (text.py:1822-1825). -/
def normGeneral (cache : List (List α) → Option (List (List α))) (repl s : List α)
    (seps : List (List α)) : List α :=
  join repl ((msGen cache s seps .no (some (-1)) false false .no false).map Item.get)

/-- normalize_whitespace (text.py:1731-1825), replacement given; `fast` says whether `separators` is
the object `whitespace` or `whitespace_without_crlf`. -/
def normalizeWhitespace (cache : List (List α) → Option (List (List α))) (sp : α → Bool)
    (fast : Bool) (s : List α) (seps : List (List α)) (repl : List α) : Except Err (List α) :=
  if [] ∈ seps then .error .valueError
  else if seps = [] then .error .valueError
  else if s = [] then .ok []
  else if fast then .ok (normFast sp repl s)
  else .ok (normGeneral cache repl s seps)

end Big.MS
