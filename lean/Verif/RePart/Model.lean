import Verif.Regex.Basic
/-!
# re_partition, reversed_re_finditer, re_rpartition (big/text.py:376-464, 469-720, 723-817)

A pattern applied to one string is a `Matcher`: what `pattern.match(string, pos, endpos)` finds. A match is
represented by its span `(start, end)`. `finditer` is modelled on top of that, with CPython's rule for empty
matches. Compiling the pattern, and the difference between str and bytes, are not modelled.
-/
namespace Big.RePart

/-- The exceptions. For text.py. -/
inductive Err where
  | valueError | typeError | assertionError
  deriving DecidableEq, Repr

instance {α : Type} [DecidableEq α] : DecidableEq (Except Err α)
  | .ok a, .ok b => if h : a = b then .isTrue (by rw [h]) else .isFalse (by simp [h])
  | .error a, .error b => if h : a = b then .isTrue (by rw [h]) else .isFalse (by simp [h])
  | .ok _, .error _ => .isFalse (by simp)
  | .error _, .ok _ => .isFalse (by simp)

/-- `match.span()`. For text.py:559-580. -/
abbrev Span := Nat × Nat

/-- A compiled pattern and a string. For text.py:559-580. -/
structure Matcher where
  /-- The length of the string. -/
  len : Nat
  /-- `pattern.match(string, pos, endpos)`: where the match ends. -/
  at_ : Nat → Nat → Option Nat
  /-- The same for a match that must not be empty, with `endpos` the end of the string: what finditer asks
  for after an empty match. -/
  adv : Nat → Option Nat

/-- What is assumed of a matcher: a match is between `pos` and `endpos`. -/
structure Matcher.Lawful (M : Matcher) : Prop where
  at_le : ∀ p q e, M.at_ p q = some e → p ≤ e ∧ e ≤ q
  adv_lt : ∀ p e, M.adv p = some e → p < e ∧ e ≤ M.len

/-- `pattern.finditer(string)` from `pos` on; `must` after an empty match there. The first argument bounds the
number of steps (`findFrom_enough`). For text.py:496-582. -/
def findFrom (M : Matcher) : Nat → Nat → Bool → List Span
  | 0, _, _ => []
  | fuel + 1, pos, must =>
    if pos > M.len then []
    else
      match (if must then M.adv pos else M.at_ pos M.len) with
      | some e => (pos, e) :: findFrom M fuel e (e == pos)
      | none => findFrom M fuel (pos + 1) false

/-- `pattern.finditer(string)`. For text.py:496-582. -/
def finditer (M : Matcher) : List Span := findFrom M (2 * M.len + 3) 0 false

/-- The loop that adds matches of length zero (text.py:559-580). -/
def doctor (M : Matcher) : List Nat → List Span → List Span
  | _, [] => []
  | zeroes, (start, stop) :: ms =>
    if start ∈ zeroes then (start, stop) :: doctor M zeroes ms
    else if start = stop then (start, stop) :: doctor M (start :: zeroes) ms
    else
      (if (M.at_ start start).isSome then [(start, start)] else []) ++
        (start, stop) :: doctor M (start :: zeroes) ms

/-- The order of the tuples `(end, -start, match)`. For text.py:603-698. -/
def keyLe (a b : Span) : Bool := a.2 < b.2 || (a.2 == b.2 && b.1 ≤ a.1)

/-- Insert in a list with the greatest element first. For text.py:603-698. -/
def insertDesc (t : Span) : List Span → List Span
  | [] => [t]
  | u :: l => if keyLe u t then t :: u :: l else u :: insertDesc t l

/-- `list.sort()` for such tuples: matches cannot be compared, so that it fails when two tuples have the same
end and start. The list is returned with the greatest element first (it is only used with `pop()`).
For text.py:603-698. -/
def sortDesc (l : List Span) : Except Err (List Span) :=
  if l.Nodup then .ok (l.foldr insertDesc []) else .error .typeError

/-- The filter on overlapping_matches (text.py:604-645). -/
def truncate (M : Matcher) (prev : Nat) (over : List Span) : List Span :=
  over.filterMap (fun t =>
    if t.1 > prev then none
    else if t.2 ≤ prev then some t
    else (M.at_ t.1 prev).map (fun e => (t.1, e)))

/-- The next match that ends at or before `prev` (text.py:655-665). -/
def popViable (prev : Nat) : List Span → Option (Span × List Span)
  | [] => none
  | t :: ms => if t.2 ≤ prev then some (t, ms) else popViable prev ms

/-- The matches within `t` (text.py:667-687). -/
def scan (M : Matcher) (prev : Nat) (t : Span) : List Span :=
  t :: (List.range' (t.1 + 1) (min t.2 prev - (t.1 + 1))).filterMap (fun pos => (M.at_ pos prev).map (fun e => (pos, e)))

/-- The loop (text.py:603-698): the matches that are yielded. `ms` is matches, the last one first; the first
argument bounds the number of turns (`revLoop_enough`). -/
def revLoop (M : Matcher) : Nat → List Span → List Span → Nat → Except Err (List Span)
  | 0, _, _, _ => .ok []
  | fuel + 1, ms, over, prev =>
    let over := truncate M prev over
    let r : Except Err (List Span × List Span) :=
      if over = [] then
        match popViable prev ms with
        | none => .ok ([], [])
        | some (t, ms) => if t.1 ≤ prev then .ok (scan M prev t, ms) else .error .assertionError
      else .ok (over, ms)
    match r with
    | .error e => .error e
    | .ok (over, ms) =>
      match sortDesc over with
      | .error e => .error e
      | .ok [] => .ok []
      | .ok (t :: over) =>
        match revLoop M fuel ms over t.1 with
        | .error e => .error e
        | .ok ys => .ok (t :: ys)

/-- The number of turns that is enough. For text.py:469-720. -/
def turns (ms over : List Span) : Nat := over.length + (ms.map (fun t => t.2 - t.1 + 1)).sum

/-- `matches` when the loop starts, the last one first (text.py:496-582). -/
def sortedMatches (M : Matcher) : Except Err (List Span) :=
  sortDesc (if (M.at_ 0 0).isSome then doctor M [] (finditer M) else finditer M)

/-- `reversed_re_finditer(pattern, string)` (text.py:469-720). -/
def reversedFinditer (M : Matcher) : Except Err (List Span) :=
  if finditer M = [] then .ok []
  else
    match sortedMatches M with
    | .error e => .error e
    | .ok ms => revLoop M (turns ms [] + 1) ms [] M.len

/-! ### partition -/

variable {α : Type} [DecidableEq α]

/-- `s.find(w)`. For text.py:451-461. -/
def findSub (w : List α) : List α → Option Nat
  | [] => if w = [] then some 0 else none
  | c :: s => if w.isPrefixOf (c :: s) then some 0 else (findSub w s).map (· + 1)

/-- `s.rfind(w)`. For text.py:805-813. -/
def rfindSub (w : List α) : List α → Option Nat
  | [] => if w = [] then some 0 else none
  | c :: s =>
    match rfindSub w s with
    | some i => some (i + 1)
    | none => if w.isPrefixOf (c :: s) then some 0 else none

/-- `s.partition(w)`: the text before and after. For text.py:451-461. -/
def partition (s w : List α) : Except Err (List α × List α) :=
  if w = [] then .error .valueError
  else match findSub w s with
    | some i => .ok (s.take i, s.drop (i + w.length))
    | none => .ok (s, [])

/-- `s.rpartition(w)`: the text before and after. For text.py:805-813. -/
def rpartition (s w : List α) : Except Err (List α × List α) :=
  if w = [] then .error .valueError
  else match rfindSub w s with
    | some i => .ok (s.take i, s.drop (i + w.length))
    | none => .ok ([], s)

/-- An element of the tuple that is returned. For text.py:451-461. -/
inductive Elem (α : Type) where
  | text (s : List α)
  | found (m : Option Span)
  deriving DecidableEq

/-- `match.group(0)` for the string `s`. For text.py:451-461. -/
def group (s : List α) (m : Span) : List α := (s.take m.2).drop m.1

/-- The loop of re_partition (text.py:451-461); `s0` is the string that was searched, `s` what is left of it. -/
def partLoop (s0 : List α) : Nat → List Span → List α → Except Err (List (Elem α))
  | 0, _, s => .ok [.text s]
  | remaining + 1, [], s => .ok (.text s :: (List.replicate (remaining + 1) [.found none, .text []]).flatten)
  | remaining + 1, m :: ms, s =>
    match partition s (group s0 m) with
    | .error e => .error e
    | .ok (before, after) =>
      match partLoop s0 remaining ms after with
      | .error e => .error e
      | .ok r => .ok (.text before :: .found (some m) :: r)

/-- `re_partition(s, pattern, count)` (text.py:376-464). -/
def rePartition (M : Matcher) (s : List α) (count : Int) : Except Err (List (Elem α)) :=
  if count = 1 then
    match (finditer M).head? with
    | none => .ok [.text s, .found none, .text []]
    | some m =>
      match partition s (group s m) with
      | .error e => .error e
      | .ok (before, after) => .ok [.text before, .found (some m), .text after]
  else if count = 0 then .ok [.text s]
  else if count < 0 then .error .valueError
  else partLoop s count.toNat (finditer M) s

/-- The loop of re_rpartition (text.py:805-813): `result`, which is in reverse, and the rest of the string
comes last. -/
def rpartLoop (s0 : List α) : Nat → List Span → List α → Except Err (List (Elem α))
  | 0, _, s => .ok [.text s]
  | remaining + 1, [], s => .ok (.text s :: (List.replicate (remaining + 1) [.found none, .text []]).flatten)
  | remaining + 1, m :: ms, s =>
    match rpartition s (group s0 m) with
    | .error e => .error e
    | .ok (before, after) =>
      match rpartLoop s0 remaining ms before with
      | .error e => .error e
      | .ok r => .ok (.text after :: .found (some m) :: r)

/-- `re_rpartition(s, pattern, count)` (text.py:723-817). -/
def reRpartition (M : Matcher) (s : List α) (count : Int) : Except Err (List (Elem α)) :=
  if count = 1 then
    match reversedFinditer M with
    | .error e => .error e
    | .ok [] => .ok [.text [], .found none, .text s]
    | .ok (m :: _) =>
      match rpartition s (group s m) with
      | .error e => .error e
      | .ok (before, after) => .ok [.text before, .found (some m), .text after]
  else if count = 0 then .ok [.text s]
  else if count < 0 then .error .valueError
  else
    match reversedFinditer M with
    | .error e => .error e
    | .ok ms =>
      match rpartLoop s count.toNat ms s with
      | .error e => .error e
      | .ok r => .ok r.reverse

/-! ## Specification -/

/-- A span that the pattern matches. -/
def Matcher.IsMatch (M : Matcher) (t : Span) : Prop :=
  (∃ q, q ≤ M.len ∧ M.at_ t.1 q = some t.2) ∨ M.adv t.1 = some t.2

/-- A tuple of texts with matches between them. -/
def weave : List (List α) → List (Option Span) → List (Elem α)
  | t :: ts, m :: ms => .text t :: .found m :: weave ts ms
  | [t], [] => [.text t]
  | _, _ => []

/-- The text of an element: `m.group(0) if m else ''` for a match. -/
def Elem.str (s : List α) : Elem α → List α
  | .text t => t
  | .found none => []
  | .found (some m) => group s m

/-- The matches, and None for those that are missing. -/
def padTo (count : Nat) (ms : List Span) : List (Option Span) :=
  (ms.take count).map some ++ List.replicate (count - ms.length) none

/-- The text between matches: before the first one (from `pos`), between one and the next, and after the last
one. -/
def between (s : List α) : Nat → List Span → List (List α)
  | pos, [] => [s.drop pos]
  | pos, m :: ms => (s.take m.1).drop pos :: between s m.2 ms

/-- A pattern for which only the text that it matches counts, not what is around it: it matches no empty
string, and if it matches some text in one place then it matches that text, or a longer one, wherever that
text is found. (See `C93_textual`: this is so for a pattern with no lookahead and no anchors.) -/
structure Textual (M : Matcher) (s : List α) : Prop where
  len : M.len = s.length
  pos : ∀ p q e, M.at_ p q = some e → p < e
  again : ∀ p q e p' q', M.at_ p q = some e → q ≤ s.length → q' ≤ s.length → p' + (e - p) ≤ q' →
    group s (p', p' + (e - p)) = group s (p, e) → ∃ e', M.at_ p' q' = some e' ∧ p' + (e - p) ≤ e'

end Big.RePart
