/-!
# Model of lines over an iterable (big/text.py:3038-3115), with types

The values an iterable yields may be anything; each call of `__next__` either returns a LineInfo and a line or raises,
and may be called again after it has raised.
-/
namespace Big.LinesIter

/-- A value yielded by the iterable, or a part of one. `seq` is a tuple or a list; `other` is an object of another type,
with its truth value, which cannot be iterated over or added to something. For text.py:2827-2858. -/
inductive Val where
  | str (t : List Char) | bytes (t : List UInt8) | seq (l : List Val) | none | other (truthy : Bool)

/-- `bool(v)`. For text.py:3072-3115. -/
def Val.truthy : Val → Bool
  | .str t => !t.isEmpty
  | .bytes t => !t.isEmpty
  | .seq l => !l.isEmpty
  | .none => false
  | .other b => b

/-- Exceptions. For text.py. -/
inductive Err where
  | typeError | valueError
  deriving DecidableEq

/-- The attributes `is_pairs` and `s_is_bytes` (text.py:3060-3062): not known yet, pairs, or strings (of bytes or not);
and `line_number`. -/
inductive Mode where
  | unknown | pairs | strings (isBytes : Bool)
  deriving DecidableEq

/-- What the iterator of lines remembers (text.py:3042-3064). -/
structure State where
  mode : Mode
  lineNumber : Int

/-- What `__next__` returns: the attributes of the LineInfo set here, and the line. For text.py:3072-3115. -/
structure Out where
  infoLine : Val
  lineNumber : Int
  columnNumber : Int
  lineEnd : Val
  line : Val

/-- `a + b`. For text.py:3072-3115. -/
def add : Val → Val → Except Err Val
  | .str a, .str b => .ok (.str (a ++ b))
  | .bytes a, .bytes b => .ok (.bytes (a ++ b))
  | .seq a, .seq b => .ok (.seq (a ++ b))
  | _, _ => .error .typeError

/-- `LineInfo(self, line, ..., end=end)`: the checks of line and end, and the `end` stored (text.py:2827-2858). -/
def lineInfo : Val → Val → Except Err Val
  | .str _, .none => .ok (.str [])
  | .str _, .str e => .ok (.str e)
  | .bytes _, .none => .ok (.bytes [])
  | .bytes _, .bytes e => .ok (.bytes e)
  | _, _ => .error .typeError

/-- The elements of a value one iterates over: `line, end = value`. The elements of bytes are ints, of which 0 is false.
For text.py:3087, 3099. -/
def elements : Val → Except Err (List Val)
  | .seq l => .ok l
  | .str t => .ok (t.map (fun c => .str [c]))
  | .bytes t => .ok (t.map (fun b => .other (b ≠ 0)))
  | _ => .error .typeError

/-- `line, end = value` (text.py:3087, 3099): ValueError if there are not two. -/
def unpack (v : Val) : Except Err (Val × Val) :=
  match elements v with
  | .error e => .error e
  | .ok [a, b] => .ok (a, b)
  | .ok _ => .error .valueError

/-- An empty string. For text.py:3086-3107. -/
def emptyOf (isBytes : Bool) : Val := if isBytes then .bytes [] else .str []

/-- `isinstance(line, bytes)`. For text.py:3072-3115. -/
def isBytes : Val → Bool
  | .bytes _ => true
  | _ => false

/-- The line and its end, and the new mode (text.py:3086-3107). The attribute is_pairs is set before the length of a pair
is checked. -/
def lineAndEnd (m : Mode) (v : Val) : Except Err (Val × Val) × Mode :=
  match m with
  | .pairs => (unpack v, .pairs)
  | .strings b => (.ok (v, emptyOf b), m)
  | .unknown =>
    match v with
    | .seq [a, b] => (.ok (a, b), .pairs)
    | .seq _ => (.error .valueError, .pairs)
    | _ => (.ok (v, emptyOf (isBytes v)), .strings (isBytes v))

/-- `__next__`, given the next value of the iterable (text.py:3072-3115). -/
def next (column : Int) (σ : State) (v : Val) : Except Err Out × State :=
  let r := lineAndEnd σ.mode v
  let σ' := { σ with mode := r.2 }
  match r.1 with
  | .error e => (.error e, σ')
  | .ok (line, lineEnd) =>
    match (if r.2 = .pairs ∧ lineEnd.truthy then add line lineEnd else .ok line) with
    | .error e => (.error e, σ')
    | .ok original =>
      match lineInfo original lineEnd with
      | .error e => (.error e, σ')
      | .ok e' => (.ok ⟨original, σ.lineNumber, column, e', line⟩, { σ' with lineNumber := σ.lineNumber + 1 })

/-- Calls of `__next__`, one for each value: what each returned or raised. For text.py:3053-3062. -/
def nexts (column : Int) (σ : State) : List Val → List (Except Err Out)
  | [] => []
  | v :: vs => (next column σ v).1 :: nexts column (next column σ v).2 vs

/-- `lines(s, line_number=n, column_number=column)`, s an iterable, and one `__next__` for each value
(text.py:3053-3062). -/
def linesOver (n column : Int) (vs : List Val) : List (Except Err Out) := nexts column ⟨.unknown, n⟩ vs

end Big.LinesIter
