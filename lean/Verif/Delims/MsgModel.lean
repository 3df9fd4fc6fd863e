import Verif.Delims.Model
/-!
# Model of the messages of split_delimiters' SyntaxErrors

`go` and `run` (Model.lean) say that SyntaxError is raised; here is what its message says.
-/
namespace Big.SD

variable {α : Type} [DecidableEq α]

/-- The message of a SyntaxError (text.py:2647, 2650, 2664). -/
inductive Msg (α : Type) where
  /-- index {index}: illegal string {string!r} -/
  | illegal (index : Nat) (string : List α)
  /-- index {index}: newline character {string!r} is illegal inside delimiter {inside!r} -/
  | newline (index : Nat) (string : List α) (inside : Option (List α))
  /-- text ends with escape string {string!r} -/
  | escape (string : List α)
  deriving DecidableEq, Repr

/-- The handlers of the actions that raise SyntaxError (text.py:2645-2650). -/
def handleMsg (m : M α) (dl : List α) : Act α → Option (Msg α)
  | .illegal => some (.illegal m.consumed dl)
  | .illegalNewline => some (.newline m.consumed dl m.opn)
  | _ => none

/-- The message of the SyntaxError raised in the `for` loop (text.py:2570-2660), step for step like `go`. -/
def goMsg (E : Env α) (ds : Delims α) : List (List α × List α) → M α → Option (Msg α)
  | [], _ => none
  | (s, dl) :: rest, m =>
    if s.isEmpty && dl.isEmpty then goMsg E ds rest m
    else if !m.escaped.isEmpty && s.isEmpty then
      let m' : M α := ⟨m.current, m.stack, m.opn, m.buffer ++ [dl.take 1], [], m.consumed + 1⟩
      if dl.length = 1 then goMsg E ds rest m' else none
    else
      let m : M α := ⟨m.current, m.stack, m.opn, m.buffer ++ [s], [], m.consumed + s.length⟩
      if dl.isEmpty then goMsg E ds rest m
      else
        match get E ds m.current dl with
        | .push st => goMsg E ds rest (doPush m dl st)
        | a =>
          let x := resolve E ds m.current dl a
          match handle m x.2.1 x.2.2 x.1 with
          | (_, .error _) => handleMsg m x.2.1 x.1
          | (_, .ok (_, true)) => none
          | (_, .ok (m', false)) => goMsg E ds rest m'

/-- After the loops (text.py:2662-2664). -/
def finishMsg (m : M α) : Option (Msg α) :=
  if m.buffer.isEmpty then none
  else if !m.escaped.isEmpty then some (.escape m.escaped) else none

/-- The outer loop (text.py:2569-2667), like `run`. -/
def runMsg (E : Env α) (ds : Delims α) (text : List α) : Nat → List (List α × List α) → M α → Option (Msg α)
  | fuel, i, m =>
    match (go E ds i m).2 with
    | .finished m' => finishMsg m'
    | .err _ => goMsg E ds i m
    | .resplit m' =>
      match fuel with
      | 0 => none
      | fuel + 1 => runMsg E ds text fuel (split E ds (text.drop m'.consumed)) m'

/-- The message of the SyntaxError that split_delimiters (text.py:2677-2781) raises, if it does. -/
def syntaxError (E : Env α) (s : List α) (ds : Delims α) (state : List (List α)) : Option (Msg α) :=
  match enter E ds state none [] with
  | .error _ => none
  | .ok (current, stack) => runMsg E ds s s.length (split E ds s) ⟨current, stack, none, [], [], 0⟩

end Big.SD
