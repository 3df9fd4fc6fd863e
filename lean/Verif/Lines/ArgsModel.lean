import Verif.Multisplit.ArgsModel
import Verif.Lines.Model
/-!
# The arguments of lines_filter_line_comment_lines and lines_strip_line_comments, with types
(big/text.py:3223-3267, 3441-3542)

Which exceptions bad comment markers raise, and when; what the others stand for. The lines are all str or all bytes.
Lines/Model.lean models what happens then. The quotes are tuples, but multiline_quotes may also be a str or bytes object.
-/
namespace Big.Lines
open Big.MS (Elem)
variable {α μ : Type} [DecidableEq α]

/-- What may be passed as comment markers: `seq` is a list or tuple, or another iterable that has `[0]`; `noIndex` is an
iterable that does not have it: a set (false if empty), or an iterator or generator (always true); `dict` has it, but
its keys are the markers; `plain` is anything else, with its truth value. For text.py:3244-3256, 3505-3520. -/
inductive MArg where
  | str (t : List Char) | bytes (t : List UInt8) | seq (l : List Elem) | noIndex (l : List Elem) (truthy : Bool)
  | dict (keys : List Elem) | plain (truthy : Bool)

/-- `bool(a)`. For text.py:3244-3256, 3505-3520. -/
def MArg.truthy : MArg → Bool
  | .str t => !t.isEmpty
  | .bytes t => !t.isEmpty
  | .seq l => !l.isEmpty
  | .noIndex _ b => b
  | .dict l => !l.isEmpty
  | .plain b => b

/-- The type of the lines. For text.py:3214-3267. -/
structure LKind (α : Type) where
  isBytes : Bool
  elem : Elem → Option (List α)

/-- The lines are str. -/
def strL : LKind Char where
  isBytes := false
  elem | .str t => some t | _ => none

/-- The lines are bytes. -/
def bytesL : LKind UInt8 where
  isBytes := true
  elem | .bytes t => some t | _ => none

/-- Exceptions. For text.py. -/
inductive TErr where
  | plain (e : Err) | typeError | keyError
  deriving DecidableEq, Repr

/-- What a generator yields, and the exception that ends it. For text.py:3214-3267. -/
abbrev TStream (α μ : Type) := List (Pair α μ) × Option TErr

/-- The stream of a modifier whose arguments are right. For text.py:3214-3267. -/
def ofStream (s : Stream α μ) : TStream α μ := (s.1, s.2.map .plain)

/-- `isinstance(e, bytes)`. For text.py:3244-3256, 3505-3520. -/
def elemIsBytes : Elem → Bool
  | .bytes _ => true
  | _ => false

/-- Is it of the type that the pattern has? For text.py:3214-3267. -/
def elemOfType (bytes : Bool) : Elem → Bool
  | .str _ => !bytes
  | .bytes _ => bytes
  | .other => false

/-- The first look at the markers (text.py:3244-3256, 3505-3520): whether they are bytes, and what they are. `markers[0]`
raises TypeError for a set, an iterator and the like, and KeyError for a dict (unless 0 is a key of it: not modelled). -/
def lookAt : MArg → Except TErr (Bool × List Elem)
  | .str t => if t.isEmpty then .error (.plain .valueError) else .ok (false, t.map (fun c => .str [c]))
  | .bytes t => if t.isEmpty then .error (.plain .valueError) else .ok (true, t.map (fun c => .bytes [c]))
  | .seq [] => .error (.plain .valueError)
  | .seq (e :: l) => .ok (elemIsBytes e, e :: l)
  | .noIndex _ b => if b then .error .typeError else .error (.plain .valueError)
  | .dict l => if l.isEmpty then .error (.plain .valueError) else .error .keyError
  | .plain b => if b then .error .typeError else .error (.plain .valueError)

/-- A generator that raises TypeError at the first line. For text.py:3214-3267. -/
def failing (li : Stream α μ) : TStream α μ :=
  match li.1 with
  | [] => ofStream li
  | _ :: _ => ([], some .typeError)

/-- The markers, if they are of the type of the lines. For text.py:3214-3267. -/
def elems (K : LKind α) (l : List Elem) : Option (List (List α)) := l.mapM K.elem

/-- lines_filter_line_comment_lines (text.py:3214-3267). One marker is not looked at further: if it is not of the type of
the lines, `startswith` raises TypeError at the first line (a tuple of strings inside a list, which `startswith` would take, is
not modelled). Of several a pattern is made, which raises TypeError at once if
they are not all of the same type (text.py:820-844), and at the first line if that is not the type of the lines. -/
def filterCall (K : LKind α) (E : Env α) (li : Stream α μ) (a : MArg) : TStream α μ :=
  match lookAt a with
  | .error e => ([], some e)
  | .ok (b, l) =>
    if l.length ≠ 1 && !l.all (elemOfType b) then ([], some .typeError)
    else match elems K l with
      | some markers => ofStream (Modifier.apply E li (.filterLineCommentLines markers))
      | none => failing li

/-- multiline_quotes: a tuple of quotes, or a str (or bytes object) of which each character is one. For text.py:3427. -/
inductive Multi (α : Type) where
  | tuple (l : List (List α)) | text (t : List α)

/-- The multiline quotes. For text.py:3214-3267. -/
def Multi.elems : Multi α → List (List α)
  | .tuple l => l
  | .text t => t.map (fun c => [c])

/-- `q in multiline_quotes` (text.py:3427): for a str, whether it is a substring. -/
def Multi.has : Multi α → List α → Bool
  | .tuple l, q => l.contains q
  | .text t, q => contains q t

/-- One line (text.py:3375-3432), as `commentOne`. -/
def commentOneT (E : Env α) (a : Comments α) (ml : Multi α) (state : List α) (p : Pair α μ) :
    Except Err (Pair α μ × List α) := do
  let i ← segmentsOf E a state p.2
  match ← scan a.markers p.2 state [] [] i.1 i.2 with
  | .comment state s =>
    let q ← clipTrailing p.1 p.2 s.length (some s)
    .ok (q, state)
  | .noComment state lead trail =>
    if !lead.isEmpty && trail.isEmpty then
      if !ml.has lead then .error .syntaxError
      else .ok (p, lead)
    else .ok (p, state)

/-- The generator (text.py:3370-3437), as `commentLoop`. -/
def commentLoopT (E : Env α) (a : Comments α) (ml : Multi α) : List α → List (Pair α μ) → Option Err → Stream α μ
  | _, [], some e => ([], some e)
  | state, [], none => ([], if state.isEmpty then none else some .syntaxError)
  | state, p :: rest, e =>
    match commentOneT E a ml state p with
    | .error e' => ([], some e')
    | .ok (q, state') =>
      let r := commentLoopT E a ml state' rest e
      (q :: r.1, r.2)

/-- lines_strip_line_comments with markers of the right type (text.py:3522-3542). -/
def stripMulti (E : Env α) (li : Stream α μ) (markers quotes : List (List α)) (ml : Multi α) (escape : List α) : Stream α μ :=
  let a : Comments α := ⟨markers, quotes, ml.elems, escape⟩
  match segmentsOf E a [] [E.sq.laden] with
  | .error e => ([], some e)
  | .ok _ => commentLoopT E a ml [] li.1 li.2

/-- The loop over the segments of a line, as `scan`, when the splitter cannot be applied to the line: TypeError for the first
segment that is not quoted. For text.py:3441-3542. -/
def scanBad (line : List α) : List α → List α → List α → List (Big.SQ.Tuple α) → Option Big.SQ.Err →
    Except TErr (List α × List α × List α)
  | state, lead, trail, [], none => .ok (state, lead, trail)
  | _, _, _, [], some _ => .error (.plain .syntaxError)
  | state, _, _, (lead, segment, trail) :: rest, e =>
    if !lead.isEmpty then scanBad line state lead trail rest e
    else if !state.isEmpty then
      if !trail.isEmpty then scanBad line [] lead trail rest e
      else if segment ≠ line then .error (.plain .assertionError)
      else scanBad line state lead trail rest e
    else .error .typeError

/-- The generator, as `commentLoopT`, when the splitter cannot be applied to the lines. For text.py:3441-3542. -/
def commentLoopBad (E : Env α) (a : Comments α) (ml : Multi α) : List α → List (Pair α μ) → Option Err → TStream α μ
  | _, [], some e => ([], some (.plain e))
  | state, [], none => ([], if state.isEmpty then none else some (.plain .syntaxError))
  | state, p :: rest, e =>
    match segmentsOf E a state p.2 with
    | .error x => ([], some (.plain x))
    | .ok i => match scanBad p.2 state [] [] i.1 i.2 with
      | .error x => ([], some x)
      | .ok (state, lead, trail) =>
        if !lead.isEmpty && trail.isEmpty then
          if !ml.has lead then ([], some (.plain .syntaxError))
          else let r := commentLoopBad E a ml lead rest e; (p :: r.1, r.2)
        else let r := commentLoopBad E a ml state rest e; (p :: r.1, r.2)

/-- The first marker must be a str or bytes (text.py:3516-3520). -/
def firstBad : List Elem → Bool
  | .other :: _ => true
  | _ => false

/-- lines_strip_line_comments (text.py:3441-3542). The pattern made of the markers raises TypeError at once if they are not
all of the same type, and when it is applied to a line (text.py:3408) if that is not the type of the lines. -/
def stripCall (K : LKind α) (E : Env α) (li : Stream α μ) (a : MArg) (quotes : List (List α)) (ml : Multi α)
    (escape : List α) : TStream α μ :=
  match lookAt a with
  | .error e => ([], some e)
  | .ok (b, l) =>
    if firstBad l then ([], some (.plain .valueError))
    else match segmentsOf E ⟨[], quotes, ml.elems, escape⟩ [] [E.sq.laden] with
      | .error e => ([], some (.plain e))
      | .ok _ =>
        if !l.all (elemOfType b) then ([], some .typeError)
        else match elems K l with
          | some markers => ofStream (stripMulti E li markers quotes ml escape)
          | none => commentLoopBad E ⟨[], quotes, ml.elems, escape⟩ ml [] li.1 li.2

end Big.Lines
