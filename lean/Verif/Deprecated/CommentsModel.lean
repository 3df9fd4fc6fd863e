import Verif.Deprecated.Quoted
import Verif.Lines.Model
/-!
# `deprecated.lines_strip_comments` (big/deprecated.py:470-567)

Uses the model of the lines iterators of C49-C51 (`Verif.Lines.Model`), of `split_quoted_strings`
(`Verif.Deprecated.Quoted`), and of `re.split` with the pattern of the comment separators
(`Lines.splitComment`: `__separators_to_re` is called with the same arguments as by
`lines_strip_line_comments`).
-/
namespace Big.DC
open Big.Lines

variable {α μ : Type} [DecidableEq α]

/-- Exceptions: of the lines iterator or of clip_trailing, RuntimeError from split_quoted_strings, and
ValueError at the call. For deprecated.py. -/
inductive SErr where
  | lines (e : Lines.Err)
  | runtimeError
  | valueError
  deriving DecidableEq, Repr

/-- The arguments. `quotes=None` is the empty list. For deprecated.py:545-561. -/
structure Args (α : Type) where
  markers : List (List α)
  quotes : List α
  bs : α
  rstrip : Bool
  triples : Bool

/-- The loop over the segments (deprecated.py:545-561); `kept` is what is in `segments`, joined. The
segments come from a generator, so if that raises it does when all segments before are read. -/
def keep (E : Env α) (a : Args α) (raised : Bool) : List α → List (DQ.Seg α) → Except SErr (List α)
  | kept, [] => if raised then .error .runtimeError else .ok kept
  | kept, (true, segment) :: rest => keep E a raised (kept ++ segment) rest
  | kept, (false, segment) :: rest =>
    match splitComment a.markers segment with
    | [] => keep E a raised kept rest -- `re.split` never returns an empty list
    | [leading] => keep E a raised (kept ++ leading) rest
    | leading :: _ => .ok (kept ++ if a.rstrip then Lines.rstrip E leading else leading)

/-- The segments of a line (deprecated.py:536-540). -/
def segments (a : Args α) (line : List α) : DQ.Result α :=
  if a.quotes.isEmpty then ⟨[(false, line)], false⟩ else DQ.splitQuoted a.quotes a.triples a.bs line

/-- One line (deprecated.py:535-566). -/
def one (E : Env α) (a : Args α) (p : Pair α μ) : Except SErr (Pair α μ) :=
  let r := segments a p.2
  match keep E a r.raised [] r.segs with
  | .error e => .error e
  | .ok kept =>
    let removing : Int := (p.2.length : Int) - kept.length
    if removing ≠ 0 then
      match clipTrailing p.1 p.2 removing none with
      | .error e => .error (.lines e)
      | .ok q => .ok q
    else .ok p

/-- The generator (deprecated.py:534-567): what is yielded, and the exception that ends it. -/
def loop (E : Env α) (a : Args α) : List (Pair α μ) → List (Pair α μ) × Option SErr
  | [] => ([], none)
  | p :: rest =>
    match one E a p with
    | .error e => ([], some e)
    | .ok q => (q :: (loop E a rest).1, (loop E a rest).2)

/-- `lines_strip_comments(li, comment_separators, ...)` (deprecated.py:471-567). -/
def linesStripComments (E : Env α) (a : Args α) (li : List (Pair α μ)) : List (Pair α μ) × Option SErr :=
  if a.markers.isEmpty then ([], some .valueError) else loop E a li

end Big.DC
