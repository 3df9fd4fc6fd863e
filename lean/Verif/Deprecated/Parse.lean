/-!
# Model of `deprecated.parse_delimiters` (big/deprecated.py:245-468)

Strings are lists of characters of any type `α` (str or bytes). The open and close strings of a `Delimiter`
are one character each: this is documented, though not checked. Mixing str and bytes is modelled only by
"an entry of another type". The generator run to its end is the list of what it yielded and the exception
that ended it, if any.
-/
namespace Big.DP

variable {α : Type} [DecidableEq α]

/-- `class Delimiter` (deprecated.py:245-274). -/
structure Delim (α : Type) where
  op : α
  cl : α
  backslash : Bool := false
  nested : Bool := true
  deriving DecidableEq, Repr

/-- The exceptions of the generator. `mismatched i expected got` (deprecated.py:352), `unclosed` with the
closing delimiters named in the message (deprecated.py:366-369); `indexError` would come from `stack.pop()`
on an empty stack (deprecated.py:341). -/
inductive Err (α : Type) where
  | mismatched (i : Nat) (expected : Option α) (got : α)
  | unclosed (needs : List α)
  | indexError
  deriving DecidableEq, Repr

/-- The yielded tuple `(text, open, close)`; the empty string is `none`. For deprecated.py:334-372. -/
structure Item (α : Type) where
  text : List α
  op : Option α
  cl : Option α
  deriving DecidableEq, Repr

/-- The current delimiter `d`; `none` is `_base_delimiter` (deprecated.py:310-312): it has no close, does
not enable backslash, and is nested. -/
abbrev Cur (α : Type) := Option (Delim α)

/-- `d.close`. For deprecated.py:334-372. -/
def close (d : Cur α) : Option α := d.map (·.cl)
/-- `d.backslash`. For deprecated.py:245-274. -/
def backslash : Cur α → Bool
  | none => false
  | some d => d.backslash
/-- `d.nested`. For deprecated.py:245-274. -/
def nested : Cur α → Bool
  | none => true
  | some d => d.nested

/-- `closers`: the closing delimiters which are not also their own opening one (deprecated.py:452-463). -/
def closers (ds : List (Delim α)) : List α := (ds.filter (fun d => d.cl ≠ d.op)).map (·.cl)

/-- `open_to_delimiter.get(c)`: the dict is built in order, the last one wins (deprecated.py:315, 353). -/
def lookup (ds : List (Delim α)) (c : α) : Option (Delim α) := ds.reverse.find? (fun d => d.op = c)

/-- The loop and what is after it (deprecated.py:334-372). `stack` has its top first; `text` is what was
appended to `text`, `i` the index of the first of the remaining characters. -/
def loop (ds : List (Delim α)) (bs : α) :
    Cur α → List (Cur α) → Bool → List α → Nat → List α → List (Item α) × Option (Err α)
  | d, stack, _, text, _, [] =>
    -- 366-369
    if !stack.isEmpty then
      ([], some (.unclosed (((stack.reverse.drop 1) ++ [d]).reverse.filterMap close)))
    -- 371-372
    else if !text.isEmpty then ([⟨text, none, none⟩], none)
    else ([], none)
  | d, stack, quoted, text, i, c :: s =>
    -- 335-338
    if quoted then loop ds bs d stack false (text ++ [c]) (i + 1) s
    -- 339-345
    else if some c = close d then
      match stack with
      | [] => ([⟨text, none, some c⟩], some .indexError)
      | d' :: stack' =>
        let r := loop ds bs d' stack' quoted [] (i + 1) s
        (⟨text, none, some c⟩ :: r.1, r.2)
    -- 346-352
    else if nested d ∧ c ∈ closers ds then ([], some (.mismatched i (close d) c))
    else
      match (if nested d then lookup ds c else none) with
      -- 353-361
      | some d' =>
        let r := loop ds bs (some d') (d :: stack) quoted [] (i + 1) s
        (⟨text, some c, none⟩ :: r.1, r.2)
      -- 362-364
      | none => loop ds bs d stack (backslash d && decide (c = bs)) (text ++ [c]) (i + 1) s

/-- The inner `parse_delimiters` (deprecated.py:314-372). -/
def parse (ds : List (Delim α)) (bs : α) (s : List α) : List (Item α) × Option (Err α) :=
  loop ds bs none [] false [] 0 s

/-- An entry of the `delimiters` argument: a string, a Delimiter, or something else. For deprecated.py:430-442. -/
inductive Arg (α : Type) where
  | str (s : List α)
  | delim (d : Delim α)
  | other

/-- Exceptions raised at the call. For deprecated.py. -/
inductive CallErr where
  | valueError | typeError
  deriving DecidableEq, Repr

/-- The conversion of the entries (deprecated.py:430-442). -/
def convert : List (Arg α) → Except CallErr (List (Delim α))
  | [] => .ok []
  | .delim d :: rest => (convert rest).map (d :: ·)
  | .str [o, c] :: rest => (convert rest).map (⟨o, c, false, true⟩ :: ·)
  | .str _ :: _ => .error .valueError
  | .other :: _ => .error .typeError

/-- `repeated` is not empty (deprecated.py:455-461): some opening delimiter was seen before. -/
def repeated : List α → List (Delim α) → Bool
  | _, [] => false
  | seen, d :: ds => seen.contains d.op || repeated (d.op :: seen) ds

/-- `parse_delimiters(s, delimiters)` (deprecated.py:376-468): the checks, done at the call, then the
generator. `delimiters=None` is the call with the default delimiters, `defaults`. -/
def parseDelimiters (bs : α) (args : List (Arg α)) (s : List α) :
    Except CallErr (List (Item α) × Option (Err α)) :=
  -- 427-428
  if args.isEmpty then .error .valueError
  else
    match convert args with
    | .error e => .error e
    | .ok ds =>
      -- 446-450
      if bs ∈ ds.map (·.op) ∨ bs ∈ ds.map (·.cl) then .error .valueError
      -- 465-466
      else if repeated [] ds then .error .valueError
      else .ok (parse ds bs s)

/-- `parse_delimiters_default_delimiters` (deprecated.py:276-299). -/
def defaults : List (Arg Char) :=
  [.str ['(', ')'], .str ['[', ']'], .str ['{', '}'], .delim ⟨'\'', '\'', true, false⟩, .delim ⟨'"', '"', true, false⟩]

end Big.DP
