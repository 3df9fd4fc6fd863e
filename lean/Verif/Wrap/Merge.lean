import Verif.Wrap.SplitLemmas
/-!
# merge_columns (big/text.py:4105-4308)

Type checks, and the arguments min_width (which the code only checks for its type), are not modelled.
`overflow_before` and `overflow_after` are natural numbers.
-/
namespace Big.Wrap

variable {α : Type} [DecidableEq α]

/-- OverflowStrategy (text.py:4092-4102). -/
inductive Strategy where
  | raise | intrudeAll | delayAll
  deriving DecidableEq, Repr

/-- The text of a column: a string, or a list of lines. For text.py:4214-4217. -/
inductive ColText (α : Type) where
  | str (s : List α)
  | lines (l : List (List α))

/-- A column: `(text, min_width, max_width)`. For text.py:4214-4217. -/
structure Column (α : Type) where
  text : ColText α
  maxWidth : Int

/-- The keyword arguments. For text.py:4229-4247. -/
structure MergeOpt (α : Type) where
  separator : List α
  strategy : Strategy
  before : Nat
  after : Nat

/-- `lines` of a column (text.py:4214-4217). -/
def Column.lines (E : Env α) (c : Column α) : List (List α) :=
  match c.text with
  | .str s => linesOf E.nl (rstrip E.isSpace s)
  | .lines l => l

/-- `n * ' '`. For text.py:4206-4277. -/
def spaces (E : Env α) (n : Int) : List α := List.replicate n.toNat E.sp

/-- `line.ljust(width)`. For text.py:4259-4275. -/
def ljust (E : Env α) (line : List α) (width : Int) : List α := line ++ spaces E (width - line.length)

/-- The variables of loop 1; the list `overflows` is kept with the last one first. For text.py:4186-4195. -/
structure Loop1 where
  start : Nat
  stop : Nat
  overflows : List (Nat × Nat)
  inOverflow : Bool

/-- `add_overflow` (text.py:4186-4195). -/
def addOverflow (m : Loop1) : Loop1 :=
  match m.overflows with
  | [] => { m with inOverflow := false, overflows := [(m.start, m.stop)] }
  | last :: rest =>
    if last.2 + 1 ≥ m.start then { m with inOverflow := false, overflows := (last.1, m.stop) :: rest }
    else { m with inOverflow := false, overflows := (m.start, m.stop) :: last :: rest }

/-- Loop 1 (text.py:4229-4247). -/
def loop1 (E : Env α) (o : MergeOpt α) (width : Int) : Nat → List (List α) → Loop1 → Except Err Loop1
  | _, [], m => .ok m
  | n, line :: lines, m =>
    let line' := rstrip E.isSpace line
    if E.nl ∈ line' then .error .assertionError
    else
      let overflowed : Bool := (line'.length : Int) > width
      if !m.inOverflow && overflowed then
        if o.strategy = .raise then .error .overflowError
        else loop1 E o width (n + 1) lines { m with start := n - o.before, inOverflow := true }
      else if m.inOverflow && !overflowed then
        loop1 E o width (n + 1) lines (addOverflow { m with stop := n - 1 + o.after })
      else loop1 E o width (n + 1) lines m

/-- All overflows of a column, the first one first (text.py:4219-4263). -/
def overflowsOf (E : Env α) (o : MergeOpt α) (width : Int) (lines : List (List α)) :
    Except Err (List (Nat × Nat)) :=
  match loop1 E o width 0 lines ⟨0, 0, [], false⟩ with
  | .error e => .error e
  | .ok m =>
    let m := if m.inOverflow then addOverflow { m with stop := lines.length - 1 + o.after } else m
    .ok (if o.strategy = .delayAll ∧ m.overflows ≠ [] then [(0, m.stop)] else m.overflows.reverse)

/-- The head of loop 2's body (text.py:4265-4271): the overflows that are left, and whether line `n` is in
one; `overflows` is the current overflow and those after it (none left stands for sys.maxsize). -/
def loop2Step (n : Nat) (overflows : List (Nat × Nat)) (inOverflow : Bool) : List (Nat × Nat) × Bool :=
  let r : List (Nat × Nat) × Bool :=
    match overflows with
    | [] => ([], inOverflow)
    | cur :: rest => if n > cur.2 then (rest, false) else (cur :: rest, inOverflow)
  match r.1 with
  | [] => r
  | cur :: _ => if n ≥ cur.1 then (r.1, true) else r

/-- Loop 2 (text.py:4259-4275). -/
def loop2 (E : Env α) (width : Int) : Nat → List (List α) → List (Nat × Nat) → Bool → List (List α × Bool)
  | _, [], _, _ => []
  | n, line :: lines, overflows, inOverflow =>
    let r := loop2Step n overflows inOverflow
    (if r.2 then line else ljust E line width, r.2) :: loop2 E width (n + 1) lines r.1 r.2

/-- The padded lines of each column, and its empty column (text.py:4206-4277). -/
def columnsOf (E : Env α) (o : MergeOpt α) : List (Column α) → Except Err (List (List (List α × Bool) × List α))
  | [] => .ok []
  | c :: cs =>
    match overflowsOf E o c.maxWidth (c.lines E) with
    | .error e => .error e
    | .ok overflows =>
      match columnsOf E o cs with
      | .error e => .error e
      | .ok r => .ok ((loop2 E c.maxWidth 0 (c.lines E) overflows false, spaces E c.maxWidth) :: r)

/-- One turn of the last loop (text.py:4284-4301): the strings of the line, what is left of the iterators,
and whether all were exhausted. -/
def nextLine (sep : List α) :
    Bool → List (List (List α × Bool) × List α) → List (List α) × List (List (List α × Bool) × List α) × Bool
  | _, [] => ([], [], true)
  | add, (it, empty) :: rest =>
    let pre := if add then [sep] else []
    match it with
    | [] =>
      let r := nextLine sep true rest
      (pre ++ [empty] ++ r.1, ([], empty) :: r.2.1, r.2.2)
    | (c, true) :: it => (pre ++ [c], (it, empty) :: rest, false)
    | (c, false) :: it =>
      let r := nextLine sep true rest
      (pre ++ [c] ++ r.1, (it, empty) :: r.2.1, false)

/-- The last loop (text.py:4280-4305): the lines. The first argument bounds the number of turns; the number
of lines of all columns and one more is enough (`mergeLoop_enough`). -/
def mergeLoop (E : Env α) (sep : List α) : Nat → List (List (List α × Bool) × List α) → List (List α)
  | 0, _ => []
  | fuel + 1, its =>
    let r := nextLine sep false its
    if r.2.2 then [] else rstrip E.isSpace r.1.flatten :: mergeLoop E sep fuel r.2.1

/-- `s.join(l)`. For text.py:4105-4308. -/
def joinWith (s : List α) : List (List α) → List α
  | [] => []
  | [a] => a
  | a :: b :: l => a ++ s ++ joinWith s (b :: l)

/-- The number of lines left. -/
def total (its : List (List (List α × Bool) × List α)) : Nat := (its.map (·.1.length)).sum

/-- `merge_columns(*columns, ...)` (text.py:4105-4308). -/
def mergeColumns (E : Env α) (o : MergeOpt α) (columns : List (Column α)) : Except Err (List α) :=
  if columns = [] then .error .assertionError
  else
    match columnsOf E o columns with
    | .error e => .error e
    | .ok its => .ok (rstrip E.isSpace (joinWith [E.nl] (mergeLoop E o.separator (total its + 1) its)))

/-! ## Specification -/

/-- Line `m` of the column is too wide. -/
def wide (E : Env α) (width : Int) (lines : List (List α)) (m : Nat) : Bool :=
  lines[m]?.any (fun l => ((rstrip E.isSpace l).length : Int) > width)

/-- Line `n` of the column is in an overflow: a line that is too wide, or one of the `before` lines before
it, or one of the `after` lines after it; with DELAY_ALL all lines up to there. -/
def overflowed (E : Env α) (o : MergeOpt α) (width : Int) (lines : List (List α)) (n : Nat) : Bool :=
  (List.range lines.length).any (fun m =>
    wide E width lines m && (o.strategy = .delayAll || m ≤ n + o.before) && n ≤ m + o.after)

/-- The lines of a column, each with whether it is in an overflow. -/
def marked (E : Env α) (o : MergeOpt α) (c : Column α) : List (List α × Bool) :=
  (c.lines E).zipIdx.map (fun p => (p.1, overflowed E o c.maxWidth (c.lines E) p.2))

/-- What column `i` contributes to `rows`: a row has a cell for each column it shows, `none` where the column
has no lines left. -/
def used (i : Nat) (rows : List (List (Option (List α × Bool)))) : List (List α × Bool) :=
  rows.filterMap (fun r => r[i]?.join)

/-- The rows show the columns: each column shows all its lines in order, and nothing when they are used up;
a row shows the first column, and a column after another one unless that is in an overflow; no row is
empty. -/
structure Shows (cols : List (List (List α × Bool))) (rows : List (List (Option (List α × Bool)))) : Prop where
  complete : ∀ i c, cols[i]? = some c → used i rows = c
  short : ∀ r ∈ rows, r.length ≤ cols.length
  first : ∀ r ∈ rows, 0 < r.length
  next : ∀ r ∈ rows, ∀ i, i + 1 < cols.length →
    (i + 1 < r.length ↔ i < r.length ∧ ∀ l, r[i]? ≠ some (some (l, true)))
  exhausted : ∀ (k : Nat) r i, rows[k]? = some r → r[i]? = some none → used i (rows.drop k) = []
  notEmpty : ∀ r ∈ rows, ∃ (i : Nat) (l : List α × Bool), r[i]? = some (some l)

/-- How a cell is written: padded to the width of its column, unless it is in an overflow. -/
def cellText (E : Env α) (width : Int) : Option (List α × Bool) → List α
  | none => spaces E width
  | some (l, true) => l
  | some (l, false) => ljust E l width

/-- How a row is written. -/
def rowText (E : Env α) (sep : List α) (columns : List (Column α)) (r : List (Option (List α × Bool))) : List α :=
  rstrip E.isSpace (joinWith sep (List.zipWith (fun (c : Column α) x => cellText E c.maxWidth x) columns r))

/-- No line has a newline within it (for a column that is given as a list of lines). -/
def OneLine (E : Env α) (c : Column α) : Prop := ∀ l ∈ c.lines E, E.nl ∉ rstrip E.isSpace l

end Big.Wrap
