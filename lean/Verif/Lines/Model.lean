import Verif.Multisplit.Model
import Verif.Quoted.Model
/-!
# Model of `LineInfo`, `lines` and the lines modifiers (big/text.py:2785-3698)

Strings are lists of characters. Type checks (str against bytes) and the text of error messages are not
modelled. A generator run to its end is the list of what it yielded and the exception that ended it, if
any; a modifier maps such a stream to another. (The generators of a chain run interleaved, but each
LineInfo object is only touched by the modifier that holds it, so the order does not matter.)
-/
namespace Big.Lines
open Big.MS (Item)

variable {α μ : Type} [DecidableEq α]

/-- Exceptions. For text.py. -/
inductive Err where
  | valueError | syntaxError | assertionError | indentationError
  deriving DecidableEq, Repr

/-- A LineInfo object (text.py:2786-2875). `μ` is the type of match objects, `attrs` the attributes set
by lines_grep (other than those that LineInfo has itself). The attribute `lines` is not stored: what is
used of it, its column_number and tab_width, is in `Env`. -/
structure Info (α μ : Type) where
  line : List α
  lineNumber : Int
  columnNumber : Int
  leading : List α
  trailing : List α
  lineEnd : List α
  indent : Int
  attrs : List (String × Option μ)
  deriving DecidableEq, Repr

/-- `(info, line)`. For text.py:3072-3115. -/
abbrev Pair (α μ : Type) := Info α μ × List α

/-- What a generator yields, and the exception that ends it. For text.py:2985-3115. -/
abbrev Stream (α μ : Type) := List (Pair α μ) × Option Err

/-- Python's characters (`isSpace` is `str.isspace` of a character, `linebreaks` the default separators),
the column_number and tab_width of the `lines` object, and what split_quoted_strings and multisplit
need. For text.py:3069-3070. -/
structure Env (α : Type) where
  tab : α
  space : α
  nl : α
  cr : α
  isSpace : α → Bool
  linebreaks : List (List α)
  column : Int
  tabWidth : Int
  sq : Big.SQ.Env α

/-- The loop of `str.expandtabs`, `j` is the column. For text.py:3069-3070. -/
def expandLoop (E : Env α) : Nat → List α → List α
  | _, [] => []
  | j, c :: s =>
    if c = E.tab then
      if E.tabWidth > 0 then
        let n := E.tabWidth.toNat - j % E.tabWidth.toNat
        List.replicate n E.space ++ expandLoop E (j + n) s
      else expandLoop E j s
    else c :: expandLoop E (if c = E.nl ∨ c = E.cr then 0 else j + 1) s

/-- `s.expandtabs(self.tab_width)` (text.py:3069-3070). -/
def detab (E : Env α) (s : List α) : List α := expandLoop E 0 s

/-- `s[:i]`. For text.py:2907-2918, 2948-2959. -/
def sliceTo (s : List α) (i : Int) : List α :=
  if i ≥ 0 then s.take i.toNat else s.take (s.length - (-i).toNat)

/-- `s[i:]`. For text.py:2880-2925. -/
def sliceFrom (s : List α) (i : Int) : List α :=
  if i ≥ 0 then s.drop i.toNat else s.drop (s.length - (-i).toNat)

/-- The whole line is clipped (text.py:2907-2918, 2948-2959). -/
def clipAll (info : Info α μ) : Except Err (Info α μ × List α) :=
  if !info.lineEnd.isSuffixOf info.line then .error .assertionError
  else
    let column := info.columnNumber - info.leading.length
    let trailing := if info.lineEnd.isEmpty then info.line else sliceTo info.line (-info.lineEnd.length)
    .ok ({ info with columnNumber := column, trailing := trailing, leading := [] }, [])

/-- `info.clip_leading(line, s)`: `i` is `len(s)`, or `s` if that is an int (text.py:2880-2925). -/
def clipLeading (E : Env α) (info : Info α μ) (line : List α) (i : Int) (s : Option (List α)) :
    Except Err (Info α μ × List α) :=
  let line' := sliceFrom line i
  if line'.isEmpty then clipAll info
  else
    let s := s.getD (sliceTo line i)
    .ok ({ info with leading := info.leading ++ s,
                     columnNumber := info.columnNumber + (detab E s).length }, line')

/-- `info.clip_trailing(line, s)`: `i` is `len(s)`, or `s` if that is an int (text.py:2927-2963). -/
def clipTrailing (info : Info α μ) (line : List α) (i : Int) (s : Option (List α)) :
    Except Err (Info α μ × List α) :=
  let line' := sliceTo line (-i)
  if line'.isEmpty then clipAll info    -- note that `line[:-0]` is `line[:0]`
  else
    let s := s.getD (sliceFrom line (-i))
    .ok ({ info with trailing := s ++ info.trailing }, line')

/-! ### lines -/

/-- What `lines` iterates over: a string and separators, or an iterable of lines or of pairs of line and
linebreak (with no separators). For text.py:2985-3115. -/
inductive Source (α : Type) where
  | text (s : List α) (separators : Option (List (List α)))
  | strings (l : List (List α))
  | pairs (l : List (List α × List α))

/-- The pair of an item of multisplit with keep=AS_PAIRS. For text.py:2985-3115. -/
def pairOf : Item α → List α × List α
  | .pair a b => (a, b)
  | .str a => (a, [])

/-- `lines.__next__` for each pair of line and end (text.py:3072-3115). -/
def number (E : Env α) (n : Int) : List (List α × List α) → List (Pair α μ)
  | [] => []
  | (line, e) :: rest =>
    (⟨if e.isEmpty then line else line ++ e, n, E.column, [], [], e, 0, []⟩, line) :: number E (n + 1) rest

/-- The separators `lines` splits by: `if not separators: separators = linebreaks` (text.py:3050-3052). -/
def usedSeparators (E : Env α) : Option (List (List α)) → List (List α)
  | none => E.linebreaks
  | some [] => E.linebreaks
  | some (w :: l) => w :: l

/-- `lines(s, separators, line_number=...)` (text.py:2985-3115). -/
def lines (E : Env α) (n : Int) : Source α → Stream α μ
  | .text s seps =>
    match Big.MS.multisplit E.sq.nl E.sq.cache s (usedSeparators E seps) .asPairs (some (-1)) false true .no with
    | .error _ => ([], some .valueError)
    | .ok items => (number E n (items.map pairOf), none)
  | .strings l => (number E n (l.map (fun s => (s, []))), none)
  | .pairs l => (number E n l, none)

/-! ### modifiers -/

/-- A generator that handles each pair on its own: `f` gives what is yielded for a pair, if anything.
For text.py:3133-3145, 3164-3211, 3244-3267, 3282-3290, 3344, 3361-3367. -/
def each (f : Pair α μ → Except Err (Option (Pair α μ))) : List (Pair α μ) → Option Err → Stream α μ
  | [], e => ([], e)
  | p :: rest, e =>
    match f p with
    | .error e' => ([], some e')
    | .ok none => each f rest e
    | .ok (some q) => (q :: (each f rest e).1, (each f rest e).2)

/-- `s.lstrip()`. For text.py:3186-3211. -/
def lstrip (E : Env α) (s : List α) : List α := s.dropWhile E.isSpace
/-- `s.rstrip()`. For text.py:3133-3139. -/
def rstrip (E : Env α) (s : List α) : List α := (s.reverse.dropWhile E.isSpace).reverse

/-- lines_rstrip with no separators (text.py:3133-3139). -/
def rstripOne (E : Env α) (p : Pair α μ) : Except Err (Option (Pair α μ)) :=
  let rstripped := rstrip E p.2
  if rstripped ≠ p.2 then (clipTrailing p.1 p.2 (-rstripped.length) none).map some
  else .ok (some p)

/-- lines_rstrip with separators (text.py:3141-3145). -/
def rstripSepsOne (E : Env α) (seps : List (List α)) (p : Pair α μ) : Except Err (Option (Pair α μ)) :=
  match Big.MS.multistrip E.sq.nl p.2 seps false true with
  | .error _ => .error .valueError
  | .ok rstripped =>
    if rstripped ≠ p.2 then
      (clipTrailing p.1 p.2 (-rstripped.length) none).map (fun q => some (q.1, rstripped))
    else .ok (some (p.1, rstripped))

/-- `if leading: line = info.clip_leading(line, leading)` and the same for trailing
(text.py:3175-3179, 3205-3209). -/
def clipBoth (E : Env α) (p : Pair α μ) (leading trailing : List α) : Except Err (Option (Pair α μ)) :=
  match (if leading.isEmpty then .ok p else clipLeading E p.1 p.2 leading.length (some leading)) with
  | .error e => .error e
  | .ok p =>
    (if trailing.isEmpty then .ok p else clipTrailing p.1 p.2 trailing.length (some trailing)).map some

/-- `s.partition(t)`, t not empty: before and after the first occurrence, or `s` and nothing. For text.py:3166-3181. -/
def partition (t : List α) : List α → List α × List α
  | [] => ([], [])
  | c :: s =>
    if t.isPrefixOf (c :: s) then ([], (c :: s).drop t.length)
    else (c :: (partition t s).1, (partition t s).2)

/-- lines_strip with separators (text.py:3166-3181). -/
def stripSepsOne (E : Env α) (seps : List (List α)) (p : Pair α μ) : Except Err (Option (Pair α μ)) :=
  if p.2.isEmpty then .ok (some p)
  else
    match Big.MS.multistrip E.sq.nl p.2 seps true true with
    | .error _ => .error .valueError
    | .ok stripped =>
      if stripped.isEmpty then clipBoth E p [] p.2
      else clipBoth E p (partition stripped p.2).1 (partition stripped p.2).2

/-- lines_strip with no separators (text.py:3186-3211). -/
def stripOne (E : Env α) (p : Pair α μ) : Except Err (Option (Pair α μ)) :=
  if p.2.isEmpty then .ok (some p)
  else
    let lstripped := lstrip E p.2
    if lstripped.isEmpty then clipBoth E p [] p.2
    else
      let leading := p.2.take (p.2.length - lstripped.length)
      let rstripped := rstrip E lstripped
      let trailing := lstripped.drop rstripped.length
      clipBoth E p leading trailing

/-- Keep the pairs whose line satisfies `f` (text.py:3216-3219, 3282-3290, 3695-3698). -/
def filterOne (f : List α → Bool) (p : Pair α μ) : Except Err (Option (Pair α μ)) :=
  .ok (if f p.2 then some p else none)

/-- The test of lines_filter_line_comment_lines (text.py:3256-3265): one marker, or a regular expression
for several. -/
def isCommentLine (E : Env α) (markers : List (List α)) (line : List α) : Bool :=
  match markers with
  | [m] => m.isPrefixOf (lstrip E line)
  | _ => (Big.MS.match0 (.seq (.star (.cls E.isSpace)) (Big.MS.sepRe markers false)) line).isSome

/-- `s in t`. For text.py:3133-3145, 3164-3211, 3244-3267, 3282-3290, 3344, 3361-3367. -/
def contains (s : List α) : List α → Bool
  | [] => s.isEmpty
  | c :: t => s.isPrefixOf (c :: t) || contains s t

/-- `setattr(info, name, m)`, for a name LineInfo does not use itself. For text.py:3293-3308. -/
def setAttr (info : Info α μ) (name : String) (m : Option μ) : Info α μ :=
  { info with attrs := (name, m) :: info.attrs }

/-- lines_grep (text.py:3293-3308); `search` is `pattern.search`. -/
def grepOne (search : List α → Option μ) (name : String) (invert : Bool) (p : Pair α μ) :
    Except Err (Option (Pair α μ)) :=
  match search p.2 with
  | some m => .ok (if invert then none else some (setAttr p.1 name (some m), p.2))
  | none => .ok (if invert then some (setAttr p.1 name none, p.2) else none)

/-- lines_sort (text.py:3361-3367): `lt` compares the keys of two pairs. `list.sort` is stable, and
`reverse=True` reverses the list before and after. -/
def sort (lt : Pair α μ → Pair α μ → Bool) (reverse : Bool) (l : List (Pair α μ)) : List (Pair α μ) :=
  let le := fun a b => !lt b a
  if reverse then (l.reverse.mergeSort le).reverse else l.mergeSort le

/-- lines_convert_tabs_to_spaces (text.py:3555-3556). -/
def tabsOne (E : Env α) (p : Pair α μ) : Except Err (Option (Pair α μ)) := .ok (some (p.1, detab E p.2))

/-! #### lines_strip_indent -/

/-- The new `leadings`, innermost first (text.py:3641-3651): what is open after a line at column `c`.
(`indent` is always its length.) -/
def dedent (c : Int) : List Int → List Int
  | [] => []
  | l :: rest => if l ≥ c then (if l > c then [] else l :: rest) else dedent c rest

/-- Which indents are open after a line that is not blank (text.py:3619-3659). -/
def indentStep (E : Env α) (info : Info α μ) (leadings : List Int) : Except Err (List Int) :=
  let c := info.columnNumber
  if c = E.column then
    if !info.leading.isEmpty then .error .assertionError else .ok []
  else
    match leadings with
    | [] => .ok [c]
    | l :: rest =>
      if l = c then .ok leadings
      else if c > l then .ok (c :: leadings)
      else
        match dedent c rest with
        | [] => .error .indentationError
        | r => .ok r

/-- `info.indent = indent` (text.py:3664, 3668, 3675). -/
def setIndent (p : Pair α μ) (n : Int) : Pair α μ := ({ p.1 with indent := n }, p.2)

/-- The loop of lines_strip_indent (text.py:3585-3676). -/
def indentLoop (E : Env α) : List (Pair α μ) → Option Err → List Int → List (Pair α μ) → Stream α μ
  | [], none, _, blank => (blank.map (setIndent · 0), none)
  | [], some e, _, _ => ([], some e)
  | p :: rest, e, leadings, blank =>
    let lstripped := lstrip E p.2
    if lstripped.isEmpty then
      match clipTrailing p.1 p.2 p.2.length (some p.2) with
      | .error e' => ([], some e')
      | .ok q => indentLoop E rest e leadings (blank ++ [q])
    else
      match clipLeading E p.1 p.2 (p.2.length - lstripped.length) none with
      | .error e' => ([], some e')
      | .ok q =>
        match indentStep E q.1 leadings with
        | .error e' => ([], some e')
        | .ok leadings' =>
          let n : Int := leadings'.length
          let r := indentLoop E rest e leadings' []
          (blank.map (setIndent · n) ++ setIndent q n :: r.1, r.2)

/-! #### lines_strip_line_comments -/

/-- Arguments of lines_strip_line_comments. For text.py:3378-3381. -/
structure Comments (α : Type) where
  markers : List (List α)
  quotes : List (List α)
  multilineQuotes : List (List α)
  escape : List α

/-- `line_comment_splitter(segment, maxsplit=1)` (text.py:3408, 3539-3540). -/
def splitComment (markers : List (List α)) (segment : List α) : List (List α) :=
  Big.MS.reSplit (Big.MS.match0 (Big.MS.sepRe markers true)) true 1 segment

/-- How the loop over the segments of a line ends: the quote still open (`state`) and the last triplet,
or the comment. For text.py:3388-3422. -/
inductive Scan (α : Type) where
  | noComment (state lead trail : List α)
  | comment (state : List α) (segments : List α)

/-- The loop over the segments of a line (text.py:3388-3422). The arguments are `state`, the last leading
and trailing quote, the triplets left, and the exception split_quoted_strings ends with. -/
def scan (markers : List (List α)) (line : List α) :
    List α → List α → List α → List (Big.SQ.Tuple α) → Option Big.SQ.Err → Except Err (Scan α)
  | state, lead, trail, [], none => .ok (.noComment state lead trail)
  | _, _, _, [], some _ => .error .syntaxError
  | state, _, _, (lead, segment, trail) :: rest, e =>
    if !lead.isEmpty then scan markers line state lead trail rest e
    else if !state.isEmpty then
      if !trail.isEmpty then scan markers line [] lead trail rest e
      else if segment ≠ line then .error .assertionError
      else scan markers line state lead trail rest e
    else
      match splitComment markers segment with
      | _ :: f :: fields =>
        match e with
        | some _ => .error .syntaxError
        | none =>
          .ok (.comment state ((f :: fields).flatten ++
            (rest.map (fun x => x.1 ++ x.2.1 ++ x.2.2)).flatten))
      | _ => scan markers line state lead trail rest e

/-- The triplets of a line (text.py:3378-3381). -/
def segmentsOf (E : Env α) (a : Comments α) (state line : List α) :
    Except Err (List (Big.SQ.Tuple α) × Option Big.SQ.Err) :=
  if a.quotes.isEmpty && a.multilineQuotes.isEmpty then .ok ([([], line, [])], none)
  else
    match Big.SQ.splitQuotedStrings E.sq line a.quotes a.escape a.multilineQuotes state with
    | .error _ => .error .valueError
    | .ok r => .ok r

/-- One line (text.py:3375-3432): the pair yielded and the new state. -/
def commentOne (E : Env α) (a : Comments α) (state : List α) (p : Pair α μ) :
    Except Err (Pair α μ × List α) := do
  let i ← segmentsOf E a state p.2
  match ← scan a.markers p.2 state [] [] i.1 i.2 with
  | .comment state s =>
    let q ← clipTrailing p.1 p.2 s.length (some s)
    .ok (q, state)
  | .noComment state lead trail =>
    if !lead.isEmpty && trail.isEmpty then
      if lead ∉ a.multilineQuotes then .error .syntaxError
      else .ok (p, lead)
    else .ok (p, state)

/-- The generator lines_strip_line_comments (text.py:3370-3437). -/
def commentLoop (E : Env α) (a : Comments α) : List α → List (Pair α μ) → Option Err → Stream α μ
  | _, [], some e => ([], some e)
  | state, [], none => ([], if state.isEmpty then none else some .syntaxError)
  | state, p :: rest, e =>
    match commentOne E a state p with
    | .error e' => ([], some e')
    | .ok (q, state') =>
      let r := commentLoop E a state' rest e
      (q :: r.1, r.2)

/-! #### chains of modifiers -/

/-- The lines modifiers and their arguments. For text.py:3133-3145, 3164-3211, 3244-3267, 3282-3290, 3344, 3361-3367. -/
inductive Modifier (α μ : Type) where
  | rstrip (separators : Option (List (List α)))
  | strip (separators : Option (List (List α)))
  | filterLineCommentLines (markers : List (List α))
  | containing (s : List α) (invert : Bool)
  | grep (search : List α → Option μ) (name : String) (invert : Bool)
  | sort (lt : Pair α μ → Pair α μ → Bool) (reverse : Bool)
  | stripLineComments (a : Comments α)
  | convertTabsToSpaces
  | stripIndent
  | filterEmptyLines

/-- `lines_...(li, ...)` (text.py:3133-3145, 3164-3211, 3244-3267, 3282-3290, 3344, 3361-3367,
3504-3542, 3555-3556, 3585-3676, 3695-3698). Arguments that are rejected at the call are modelled by a
stream that raises at once. -/
def Modifier.apply (E : Env α) (li : Stream α μ) : Modifier α μ → Stream α μ
  | .rstrip none => each (rstripOne E) li.1 li.2
  | .rstrip (some seps) => each (rstripSepsOne E seps) li.1 li.2
  | .strip none => each (stripOne E) li.1 li.2
  | .strip (some seps) => each (stripSepsOne E seps) li.1 li.2
  | .filterLineCommentLines markers =>
    if markers.isEmpty then ([], some .valueError)
    else each (filterOne (fun line => !isCommentLine E markers line)) li.1 li.2
  | .containing s invert => each (filterOne (fun line => contains s line != invert)) li.1 li.2
  | .grep search name invert => each (grepOne search name invert) li.1 li.2
  | .sort lt reverse =>
    match li.2 with
    | some e => ([], some e)
    | none => (Lines.sort lt reverse li.1, none)
  | .stripLineComments a =>
    if a.markers.isEmpty then ([], some .valueError)
    else
      match segmentsOf E a [] [E.sq.laden] with
      | .error e => ([], some e)
      | .ok _ => commentLoop E a [] li.1 li.2
  | .convertTabsToSpaces => each (tabsOne E) li.1 li.2
  | .stripIndent => indentLoop E li.1 li.2 [] []
  | .filterEmptyLines => each (filterOne (fun line => !line.isEmpty)) li.1 li.2

/-- A chain of modifiers, the first one applied first. -/
def chain (E : Env α) (li : Stream α μ) (ms : List (Modifier α μ)) : Stream α μ :=
  ms.foldl (fun li m => m.apply E li) li

end Big.Lines
