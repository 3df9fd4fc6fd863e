import Verif.Subclass.Model
/-!
# lines, and instances of subclasses of str and bytes (big/text.py:3038-3115, 2827-2863)

All strings are of one kind (str and its subclasses, or bytes and its subclasses). An iterable may yield strings, and
tuples of two strings.
-/
namespace Big.Sub

variable {C α : Type} [DecidableEq C] [DecidableEq α]

/-- A value of the iterable. For text.py:3085-3107. -/
inductive Val (C α : Type) where
  | line (s : Str C α)
  | pair (a b : Str C α)
  deriving DecidableEq

/-- The exceptions. For text.py:2842-2857, 3087. -/
inductive LErr where
  | typeError | valueError
  deriving DecidableEq, Repr

/-- `is_pairs` (text.py:3054-3062). -/
inductive Mode where
  | unknown | pairs | strings
  deriving DecidableEq

/-- The attributes of LineInfo that hold strings, its line number, and the line. For text.py:3113. -/
structure Out (C α : Type) where
  infoLine : Str C α
  lineNumber : Int
  lineEnd : Str C α
  line : Str C α
  deriving DecidableEq

/-- `isinstance(s, type(t))`; `sub c d`: class `c` is `d` or a subclass of it. For text.py:2851-2857. -/
def isInstance (sub : C → C → Bool) (s t : Str C α) : Bool :=
  match t.cls, s.cls with
  | none, _ => true
  | some d, some c => sub c d
  | some _, none => false

/-- `line, end = value` for a string (text.py:3087): two characters are taken for a pair, but the elements of bytes are
ints, which LineInfo refuses. -/
def unpackString (isBytes : Bool) (s : Str C α) : Except LErr (Str C α × Str C α) :=
  match s.text with
  | [c, d] => if isBytes then .error .typeError else .ok (new [c], new [d])
  | _ => .error .valueError

/-- The line and its end, and the new mode (text.py:3085-3107). In mode `strings` a tuple would be the line: LineInfo
refuses it. -/
def lineAndEnd (isBytes : Bool) (m : Mode) (v : Val C α) : Except LErr (Str C α × Str C α) × Mode :=
  match m, v with
  | .pairs, .pair a e => (.ok (a, e), .pairs)
  | .pairs, .line s => (unpackString isBytes s, .pairs)
  | .strings, .line s => (.ok (s, new []), .strings)
  | .strings, .pair _ _ => (.error .typeError, .strings)
  | .unknown, .pair a e => (.ok (a, e), .pairs)
  | .unknown, .line s => (.ok (s, new []), .strings)

/-- `original_line` (text.py:3109-3112). -/
def originalLine (m : Mode) (line lineEnd : Str C α) : Str C α :=
  if m = .pairs ∧ lineEnd.text ≠ [] then new (line.text ++ lineEnd.text) else line

/-- `__next__` (text.py:3072-3115), and the check of `end` in `LineInfo.__init__` (text.py:2854-2857). -/
def next (sub : C → C → Bool) (isBytes : Bool) (m : Mode) (n : Int) (v : Val C α) : Except LErr (Out C α) × Mode × Int :=
  match lineAndEnd isBytes m v with
  | (.error e, m') => (.error e, m', n)
  | (.ok (line, lineEnd), m') =>
    if isInstance sub lineEnd (originalLine m' line lineEnd) then (.ok ⟨originalLine m' line lineEnd, n, lineEnd, line⟩, m', n + 1)
    else (.error .typeError, m', n)

/-- One `__next__` for each value. For text.py:3072-3115. -/
def nexts (sub : C → C → Bool) (isBytes : Bool) : Mode → Int → List (Val C α) → List (Except LErr (Out C α))
  | _, _, [] => []
  | m, n, v :: vs =>
    (next sub isBytes m n v).1 :: nexts sub isBytes (next sub isBytes m n v).2.1 (next sub isBytes m n v).2.2 vs

/-- lines over an iterable (text.py:3057-3062). -/
def linesOver (sub : C → C → Bool) (isBytes : Bool) (n : Int) (vs : List (Val C α)) : List (Except LErr (Out C α)) :=
  nexts sub isBytes .unknown n vs

/-- The pairs that multisplit yields, as values. For text.py:3053. -/
def Item.toVal : Item C α → Val C α
  | .str s => .line s
  | .pair a b => .pair a b

/-- lines over a string (text.py:3050-3055): multisplit with `keep=AS_PAIRS, separate=True, strip=False`. -/
def linesText (sub : C → C → Bool) (isBytes : Bool) (nl : α) (cache : List (List α) → Option (List (List α))) (n : Int)
    (s : Str C α) (seps : List (Str C α)) : Except MS.Err (List (Except LErr (Out C α))) :=
  match multisplit nl cache s seps .asPairs (some (-1)) false true .no with
  | .error e => .error e
  | .ok items => .ok (nexts sub isBytes .pairs n (items.map Item.toVal))

end Big.Sub
