import Verif.Multisplit.Model
/-!
# Model of `Delimiter` and `split_delimiters` (big/text.py:2137-2781)

Strings are lists of characters. Type checks (str against bytes) are not modelled. The generator run to
its end is the list of what it yielded and the exception that ended it, if any.
-/
namespace Big.SD
open Big.MS (Item)

variable {α : Type} [DecidableEq α]

/-- Exceptions. `diverge` is not one: it stands for a loop that never ends (it is proved that this never
happens). For text.py. -/
inductive Err where
  | valueError | syntaxError | indexError | runtimeError | diverge
  deriving DecidableEq, Repr

/-- A Delimiter (text.py:2137-2187). -/
structure Delim (α : Type) where
  close : List α
  escape : List α
  multiline : Bool
  quoting : Bool
  deriving DecidableEq, Repr

/-- Python's string constants: `nl` is the newline (for multisplit), `backslash`, `newlines` is
str_linebreaks_without_crlf or bytes_linebreaks_without_crlf; `cache` is multisplit's cache. For text.py:2154-2187. -/
structure Env (α : Type) where
  nl : α
  backslash : α
  newlines : List (List α)
  cache : List (List α) → Option (List (List α))

/-- `Delimiter(close, escape=, multiline=, quoting=)` (text.py:2154-2187). -/
def Delim.make (E : Env α) (close escape : List α) (multiline quoting : Bool) : Except Err (Delim α) :=
  if close = [E.backslash] then .error .valueError
  else if (!escape.isEmpty) != quoting then .error .valueError
  else if !(quoting || multiline) then .error .valueError
  else .ok ⟨close, escape, multiline, quoting⟩

/-- A state: the initial one, or that of an open delimiter. For text.py:2373-2476. -/
abbrev State (α : Type) := Option (List α × Delim α)

/-- An action (text.py:2263-2280); `push` is a dict. -/
inductive Act (α : Type) where
  | push (st : List α × Delim α)
  | pop | escape | illegal | illegalNewline | flush | flush1
  | trunc (s : List α)
  deriving DecidableEq, Repr

/-- A dict from tokens to actions. For text.py:2366. -/
abbrev Dict (α : Type) := List α → Option (Act α)

/-- `d[k] = v`. For text.py:2434-2468. -/
def upd (d : Dict α) (k : List α) (v : Act α) : Dict α := fun t => if t = k then some v else d t

/-- The mapping `delimiters`, in order. For text.py:2332. -/
abbrev Delims (α : Type) := List (List α × Delim α)

/-- all_openers (text.py:2332). -/
def openers (ds : Delims α) : List (List α) := ds.map (·.1)
/-- all_closers (text.py:2333). -/
def closers (ds : Delims α) : List (List α) := ds.map (·.2.close)
/-- all_escapes (text.py:2336-2338). -/
def escapes (ds : Delims α) : List (List α) := (ds.filter (·.2.quoting)).map (·.2.escape)
/-- nested_closers (text.py:2339-2341). -/
def nestedClosers (ds : Delims α) : List (List α) := (ds.filter (!·.2.quoting)).map (·.2.close)
/-- all_newlines (text.py:2343-2345). -/
def allNewlines (E : Env α) (ds : Delims α) : List (List α) :=
  if ds.any (!·.2.multiline) then E.newlines else []
/-- all_delimiter_tokens (text.py:2358). -/
def delimiterTokens (ds : Delims α) : List (List α) := openers ds ++ closers ds ++ escapes ds
/-- all_tokens (text.py:2359). -/
def allTokens (E : Env α) (ds : Delims α) : List (List α) := delimiterTokens ds ++ allNewlines E ds

/-- non_quoting_default_actions (text.py:2366). -/
def defaults (ds : Delims α) : Dict α :=
  fun t => if t ∈ delimiterTokens ds then some .illegal else none

/-- `t_characters & all_delimiter_characters` is not empty (text.py:2457-2460). -/
def overlap (chars t : List α) : Bool := t.any (fun c => chars.contains c)

/-- The inner loop over `delimiters_and_startswith_actions` (text.py:2451-2460): the value it assigns to
`state[t]`, if any (`acc` is the one assigned so far). `chars` is `all_delimiter_characters`. -/
def scanToken (chars : Option (List α)) (t : List α) : List (List α) → Option (Act α) → Option (Act α)
  | [], acc => acc
  | s :: rest, acc =>
    if t ≠ s then
      if s.isPrefixOf t then some (.trunc s)
      else if (match chars with | none => false | some cs => overlap cs t) then
        scanToken chars t rest (some .flush1)
      else scanToken chars t rest acc
    else scanToken chars t rest acc

/-- `state[t] = v`, if there is a value. For text.py:2434-2468. -/
def updOpt (d : Dict α) (t : List α) : Option (Act α) → Dict α
  | none => d
  | some v => upd d t v

/-- The state of one delimiter before the openers are added (text.py:2434-2468). -/
def ownState (E : Env α) (ds : Delims α) (d : Delim α) : Dict α :=
  let state : Dict α := if d.quoting then fun _ => none else defaults ds
  let chars := if d.quoting then some (d.close ++ d.escape) else none
  let ss := d.close :: (if d.escape.isEmpty then [] else [d.escape])
  let state := (allTokens E ds).foldl (fun st t => updOpt st t (scanToken chars t ss none)) state
  let state := if d.quoting && !d.multiline then
      fun t => if t ∈ E.newlines then some .illegalNewline else state t
    else state
  let state := upd state d.close .pop
  if d.escape.isEmpty then state else upd state d.escape .escape

/-- `state.update(push_delimiters)` (text.py:2470-2474). -/
def withOpeners (ds : Delims α) (d : Dict α) : Dict α :=
  ds.foldl (fun st kd => upd st kd.1 (.push kd)) d

/-- The dict of a state (text.py:2373-2476). -/
def dict (E : Env α) (ds : Delims α) : State α → Dict α
  | none => withOpeners ds (defaults ds)
  | some (_, d) => if d.quoting then ownState E ds d else withOpeners ds (ownState E ds d)

/-- `current.get(delimiter, _ACTION_FLUSH)`. For text.py:2615-2623. -/
def get (E : Env α) (ds : Delims α) (st : State α) (t : List α) : Act α := (dict E ds st t).getD .flush

/-- A 3-tuple. For text.py:2625-2655. -/
abbrev Tuple (α : Type) := List α × List α × List α

/-- The local variables of the generator (text.py:2548-2567). `stack` has its top first. -/
structure M (α : Type) where
  current : State α
  stack : List (State α × Option (List α))
  opn : Option (List α)
  buffer : List (List α)
  escaped : List α
  consumed : Nat

/-- How the `for` loop was left. For text.py:2570-2660. -/
inductive Out (α : Type) where
  | finished (m : M α)
  | resplit (m : M α)
  | err (e : Err)

/-- `_ACTION_TRUNCATE_TO_S_AND_RESPLIT` (text.py:2615-2623): the action, the delimiter and resplit. -/
def resolve (E : Env α) (ds : Delims α) (st : State α) (dl : List α) : Act α → Act α × List α × Bool
  | .trunc s => (get E ds st s, s, true)
  | a => (a, dl, false)

/-- Pushing (text.py:2602-2613). -/
def doPush (m : M α) (dl : List α) (st : List α × Delim α) : M α :=
  { current := some st, stack := (m.current, m.opn) :: m.stack, opn := some dl, buffer := [],
    escaped := m.escaped, consumed := m.consumed + dl.length }

/-- The handlers of the other actions (text.py:2625-2655): the tuple yielded, and the variables and
resplit or the exception. -/
def handle (m : M α) (dl : List α) (resplit : Bool) : Act α → List (Tuple α) × Except Err (M α × Bool)
  | .pop =>
    match m.stack with
    | [] => ([(m.buffer.flatten, [], dl)], .error .indexError)
    | (c, o) :: stack =>
      ([(m.buffer.flatten, [], dl)],
        .ok (⟨c, stack, o, [], m.escaped, m.consumed + dl.length⟩, resplit))
  | .escape =>
    ([], .ok (⟨m.current, m.stack, m.opn, m.buffer ++ [dl], dl, m.consumed + dl.length⟩, resplit))
  | .flush => ([], .ok (⟨m.current, m.stack, m.opn, m.buffer ++ [dl], m.escaped, m.consumed⟩, resplit))
  | .flush1 =>
    ([], .ok (⟨m.current, m.stack, m.opn, m.buffer ++ [dl.take 1], m.escaped, m.consumed + 1⟩, true))
  | .illegal => ([], .error .syntaxError)
  | .illegalNewline => ([], .error .syntaxError)
  | .push _ => ([], .error .runtimeError)
  | .trunc _ => ([], .error .runtimeError)

/-- Put a yielded list before the rest. For text.py:2570-2660. -/
def yielding (ys : List (Tuple α)) (r : List (Tuple α) × Out α) : List (Tuple α) × Out α :=
  (ys ++ r.1, r.2)

/-- The `for` loop (text.py:2570-2660). Where the code breaks because there is no delimiter, the outer
loop goes on with the rest of the same iterator, so this goes on too. -/
def go (E : Env α) (ds : Delims α) : List (List α × List α) → M α → List (Tuple α) × Out α
  | [], m => ([], .finished m)
  | (s, dl) :: rest, m =>
    if s.isEmpty && dl.isEmpty then go E ds rest m
    else if !m.escaped.isEmpty && s.isEmpty then
      let m' : M α := ⟨m.current, m.stack, m.opn, m.buffer ++ [dl.take 1], [], m.consumed + 1⟩
      if dl.length = 1 then go E ds rest m' else ([], .resplit m')
    else
      let m : M α := ⟨m.current, m.stack, m.opn, m.buffer ++ [s], [], m.consumed + s.length⟩
      if dl.isEmpty then go E ds rest m
      else
        match get E ds m.current dl with
        | .push st => yielding [(m.buffer.flatten, dl, [])] (go E ds rest (doPush m dl st))
        | a =>
          let x := resolve E ds m.current dl a
          match handle m x.2.1 x.2.2 x.1 with
          | (ys, .error e) => (ys, .err e)
          | (ys, .ok (m', true)) => (ys, .resplit m')
          | (ys, .ok (m', false)) => yielding ys (go E ds rest m')

/-- After the loops (text.py:2662-2667). -/
def finish (m : M α) : List (Tuple α) × Option Err :=
  if m.buffer.isEmpty then ([], none)
  else if !m.escaped.isEmpty then ([], some .syntaxError)
  else if m.buffer.flatten.isEmpty then ([], none)
  else ([(m.buffer.flatten, [], [])], none)

/-- The pair of an item of multisplit with keep=AS_PAIRS. For text.py:2566, 2587, 2656. -/
def pairOf : Item α → List α × List α
  | .pair a b => (a, b)
  | .str a => (a, [])

/-- `multisplit(s, all_tokens, keep=AS_PAIRS, separate=True)` (text.py:2566, 2587, 2656). all_tokens is a
set; its order does not matter to multisplit (C38). multisplit raises only if there are no tokens, which
split_delimiters excludes. -/
def split (E : Env α) (ds : Delims α) (s : List α) : List (List α × List α) :=
  match Big.MS.multisplit E.nl E.cache s (allTokens E ds) .asPairs (some (-1)) false true .no with
  | .error _ => []
  | .ok items => items.map pairOf

/-- The outer loop (text.py:2569-2667), with a bound on the number of times it resplits. -/
def run (E : Env α) (ds : Delims α) (text : List α) :
    Nat → List (List α × List α) → M α → List (Tuple α) × Option Err
  | fuel, i, m =>
    match go E ds i m with
    | (ys, .finished m') => (ys ++ (finish m').1, (finish m').2)
    | (ys, .err e) => (ys, some e)
    | (ys, .resplit m') =>
      match fuel with
      | 0 => (ys, some .diverge)
      | fuel + 1 =>
        let r := run E ds text fuel (split E ds (text.drop m'.consumed)) m'
        (ys ++ r.1, r.2)

/-- Entering the states given by the argument `state` (text.py:2771-2779). `open` stays None. -/
def enter (E : Env α) (ds : Delims α) :
    List (List α) → State α → List (State α × Option (List α)) →
      Except Err (State α × List (State α × Option (List α)))
  | [], current, stack => .ok (current, stack)
  | k :: rest, current, stack =>
    match get E ds current k with
    | .push st => enter E ds rest (some st) ((current, none) :: stack)
    | _ => .error .valueError

/-- split_delimiters (text.py:2677-2781). The cache of the default delimiters is in
Delims/CacheModel.lean. -/
def splitDelimiters (E : Env α) (s : List α) (ds : Delims α) (state : List (List α)) :
    Except Err (List (Tuple α) × Option Err) :=
  if ds.isEmpty then .error .valueError
  else if [E.backslash] ∈ openers ds then .error .valueError
  else if (openers ds).any (fun k => (nestedClosers ds).contains k) then .error .valueError
  else
    match enter E ds state none [] with
    | .error e => .error e
    | .ok (current, stack) =>
      .ok (run E ds s s.length (split E ds s) ⟨current, stack, none, [], [], 0⟩)

end Big.SD
