import Verif.Lines.Model
/-!
# Model of LineInfo as it is used by lines modifiers of one's own (big/text.py:2786-2963)

The constructor's checks, and the two clip methods with both kinds of argument.
-/
namespace Big.Lines

/-- The types of objects that matter to the constructor. Subclasses of str and bytes are not modelled.
For text.py:2827-2862. -/
inductive PyType where
  | none | str | bytes | int | pattern | matchObj | other
  deriving DecidableEq, Repr

/-- The arguments of LineInfo(lines, line, line_number, column_number, *, leading, trailing, end, indent, match), by
their types. For text.py:2827-2862. -/
structure InfoArgs where
  line : PyType
  lineNumber : PyType
  columnNumber : PyType
  leading : PyType
  trailing : PyType
  lineEnd : PyType
  indent : PyType
  «match» : PyType

/-- Does LineInfo(...) go through (text.py:2827-2862)? Otherwise it raises TypeError. -/
def InfoArgs.accepted (a : InfoArgs) : Bool :=
  if a.line ≠ .str ∧ a.line ≠ .bytes then false
  else if a.lineNumber ≠ .int then false
  else if a.columnNumber ≠ .int then false
  else if a.indent ≠ .int then false
  else if a.leading ≠ .none ∧ a.leading ≠ a.line then false
  else if a.trailing ≠ .none ∧ a.trailing ≠ a.line then false
  else if a.lineEnd ≠ .none ∧ a.lineEnd ≠ a.line then false
  else if ¬ (a.match = .none ∨ a.match = .pattern) then false
  else true

variable {α μ : Type} [DecidableEq α]

/-- The second argument of a clip method: a string or an int (text.py:2898-2905, 2940-2947). -/
inductive ClipArg (α : Type) where
  | string (s : List α)
  | number (i : Int)

/-- A call of a clip method. For text.py:2880-2963. -/
inductive ClipOp (α : Type) where
  | leading (a : ClipArg α)
  | trailing (a : ClipArg α)

/-- `line = info.clip_leading(line, s)` or `line = info.clip_trailing(line, s)` (text.py:2880-2963). -/
def ClipOp.apply (E : Env α) (p : Pair α μ) : ClipOp α → Except Err (Pair α μ)
  | .leading (.string s) => clipLeading E p.1 p.2 s.length (some s)
  | .leading (.number i) => clipLeading E p.1 p.2 i none
  | .trailing (.string s) => clipTrailing p.1 p.2 s.length (some s)
  | .trailing (.number i) => clipTrailing p.1 p.2 i none

/-- One call after the other. -/
def ClipOp.applyAll (E : Env α) (p : Pair α μ) : List (ClipOp α) → Except Err (Pair α μ)
  | [] => .ok p
  | op :: ops =>
    match op.apply E p with
    | .error e => .error e
    | .ok q => ClipOp.applyAll E q ops

end Big.Lines
