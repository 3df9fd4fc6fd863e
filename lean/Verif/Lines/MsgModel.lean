import Verif.Lines.Model
/-!
# Model of lines_strip_line_comments with its error messages (big/text.py:3370-3437)

The functions of Lines/Model.lean, with the variables that the SyntaxErrors are made of: starting_pair_for_state,
column_number and length_yielded. The line number of an info is taken as it was when the line was read.
-/
namespace Big.Lines

variable {α μ : Type} [DecidableEq α]

/-- Exceptions: `unterminated n c q` is SyntaxError(f"Line {n} column {c}: unterminated quoted marker {q}").
For text.py. -/
inductive MsgErr (α : Type) where
  | unterminated (line column : Int) (quote : List α)
  | other (e : Err)
  deriving DecidableEq, Repr

/-- The length of a 3-tuple (text.py:3390). -/
def tupleLen (x : Big.SQ.Tuple α) : Nat := x.1.length + x.2.1.length + x.2.2.length

/-- The loop over the segments of a line (text.py:3388-3422), with `column_number` and `length_yielded`. -/
def scanM (markers : List (List α)) (line : List α) : List α → List α → List α → Int → Int →
    List (Big.SQ.Tuple α) → Option Big.SQ.Err → Except Err (Scan α × Int × Int)
  | state, lead, trail, col, len, [], none => .ok (.noComment state lead trail, col, len)
  | _, _, _, _, _, [], some _ => .error .syntaxError
  | state, _, _, col, _, (lead, segment, trail) :: rest, e =>
    let len : Int := tupleLen (lead, segment, trail)
    let col := col + len
    if !lead.isEmpty then scanM markers line state lead trail col len rest e
    else if !state.isEmpty then
      if !trail.isEmpty then scanM markers line [] lead trail col len rest e
      else if segment ≠ line then .error .assertionError
      else scanM markers line state lead trail col len rest e
    else
      match splitComment markers segment with
      | _ :: f :: fields =>
        match e with
        | some _ => .error .syntaxError
        | none =>
          .ok (.comment state ((f :: fields).flatten ++
            (rest.map (fun x => x.1 ++ x.2.1 ++ x.2.2)).flatten), col, len)
      | _ => scanM markers line state lead trail col len rest e

/-- The variables of the generator: state, the line number of the line in starting_pair_for_state, column_number,
length_yielded. For text.py:3375-3432. -/
structure Track (α : Type) where
  state : List α
  start : Int
  col : Int
  len : Int

/-- One line (text.py:3375-3432). -/
def commentOneM (E : Env α) (a : Comments α) (t : Track α) (p : Pair α μ) :
    Except (MsgErr α) (Pair α μ × Track α) :=
  match segmentsOf E a t.state p.2 with
  | .error e => .error (.other e)
  | .ok (i, e) =>
    match scanM a.markers p.2 t.state [] [] p.1.columnNumber t.len i e with
    | .error e => .error (.other e)
    | .ok (.comment state s, col, len) =>
      match clipTrailing p.1 p.2 s.length (some s) with
      | .error e => .error (.other e)
      | .ok q => .ok (q, ⟨state, t.start, col, len⟩)
    | .ok (.noComment state lead trail, col, len) =>
      if !lead.isEmpty && trail.isEmpty then
        if lead ∉ a.multilineQuotes then .error (.unterminated p.1.lineNumber (col - len) lead)
        else .ok (p, ⟨lead, p.1.lineNumber, col, len⟩)
      else .ok (p, ⟨state, t.start, col, len⟩)

/-- The generator (text.py:3370-3437). -/
def commentLoopM (E : Env α) (a : Comments α) : Track α → List (Pair α μ) → Option Err →
    List (Pair α μ) × Option (MsgErr α)
  | _, [], some e => ([], some (.other e))
  | t, [], none => ([], if t.state.isEmpty then none else some (.unterminated t.start (t.col - t.len) t.state))
  | t, p :: rest, e =>
    match commentOneM E a t p with
    | .error e' => ([], some e')
    | .ok (q, t') =>
      let r := commentLoopM E a t' rest e
      (q :: r.1, r.2)

/-- `lines_strip_line_comments(li, ...)` (text.py:3504-3542). The variables have no value at first. -/
def stripCommentsM (E : Env α) (a : Comments α) (li : Stream α μ) : List (Pair α μ) × Option (MsgErr α) :=
  if a.markers.isEmpty then ([], some (.other .valueError))
  else
    match segmentsOf E a [] [E.sq.laden] with
    | .error e => ([], some (.other e))
    | .ok _ => commentLoopM E a ⟨[], 0, 0, 0⟩ li.1 li.2

end Big.Lines
