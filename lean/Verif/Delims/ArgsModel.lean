import Verif.Delims.CacheModel
/-!
# Model of the arguments of `Delimiter` and `split_delimiters`, of any type (big/text.py:2154-2187, 2323-2355, 2735-2781)

As in CacheModel, a bytes string is the list of the characters with its codes. `quoting` and `multiline` are taken as bools.
The exported default mappings are unchanged, and the tables are made anew in every call (by C80 the cache makes no
difference). Objects with an `__eq__` of their own are not modelled.
-/
namespace Big.SD

/-- Hashable Python objects, as far as the code tells them apart. For text.py:2154-2187. -/
inductive Obj where
  | str (s : List Char)
  | bytes (s : List Char)
  | other (id : Nat) (truthy : Bool)
  deriving DecidableEq, Repr

/-- `bool(x)`. For text.py:2154-2187. -/
def Obj.bool : Obj → Bool
  | .str s => !s.isEmpty
  | .bytes s => !s.isEmpty
  | .other _ b => b

/-- The str, or bytes, with the characters `s`. For text.py:66-75, 2771-2772. -/
def Obj.ofKind : Kind → List Char → Obj
  | .str, s => .str s
  | .bytes, s => .bytes s

/-- `isinstance(x, s_type)`, and the characters of `x`. For text.py:2325-2341. -/
def Obj.text? : Kind → Obj → Option (List Char)
  | .str, .str s => some s
  | .bytes, .bytes s => some s
  | _, _ => none

/-- A Delimiter object. For text.py:2154-2187. -/
structure PyDelim where
  close : Obj
  escape : Obj
  multiline : Bool
  quoting : Bool
  deriving DecidableEq, Repr

/-- Exceptions. `notMapping`: what the first operation on an object that is not a mapping raises (TypeError or
AttributeError, or ValueError if it is a collection of backslashes). For text.py. -/
inductive ArgErr where
  | typeError | valueError | assertionError | notMapping
  deriving DecidableEq, Repr

/-- `Delimiter(close, escape=escape, multiline=multiline, quoting=quoting)` (text.py:2154-2187); `close` is a Delimiter
or another object. -/
def PyDelim.make (close : PyDelim ⊕ Obj) (escape : Obj := .str []) (multiline : Bool := true) (quoting : Bool := false) :
    Except ArgErr PyDelim :=
  match close with
  | .inl d => .ok d
  | .inr close =>
    if close = .bytes ['\\'] ∨ close = .str ['\\'] then .error .valueError
    else if escape.bool != quoting then .error .valueError
    else if !(quoting || multiline) then .error .valueError
    else
      let empty := match close with | .bytes _ => Obj.bytes [] | _ => Obj.str []
      .ok ⟨close, if escape.bool then escape else empty, multiline, quoting⟩

/-- `Delimiter.copy()` (text.py:2219-2220). -/
def PyDelim.copy (d : PyDelim) : Except ArgErr PyDelim := PyDelim.make (.inl d)

/-- `Delimiter.__eq__`, with another Delimiter (text.py:2208-2214); with anything else it is False. -/
def PyDelim.eq (d e : PyDelim) : Bool :=
  decide (d.close = e.close) && decide (d.escape = e.escape) && decide (d.quoting = e.quoting) &&
    decide (d.multiline = e.multiline)

/-- `Delimiter.__hash__` (text.py:2216-2217); `h` and `hb` are `hash` of the objects and of the bools. Integers are taken as
natural numbers. -/
def PyDelim.hash (h : Obj → Nat) (hb : Bool → Nat) (d : PyDelim) : Nat :=
  h d.close ^^^ h d.escape ^^^ hb d.quoting ^^^ hb d.multiline

/-- A value in the mapping. For text.py:2325-2341. -/
inductive Val where
  | delim (d : PyDelim)
  | other (id : Nat)
  deriving DecidableEq, Repr

/-- One round of the loop over the items (text.py:2325-2341): what it adds to the sets. -/
def checkItem (ks : Kind) (x : Obj × Val) : Except ArgErr (List Char × Delim Char) :=
  match x.1.text? ks, x.2 with
  | none, _ => .error .typeError
  | some _, .other _ => .error .typeError
  | some k, .delim d =>
    match d.close.text? ks, d.escape.text? ks with
    | none, _ => .error .typeError
    | some _, none => .error .typeError
    | some c, some e =>
      if d.quoting then
        if e.isEmpty then .error .assertionError else .ok (k, ⟨c, e, d.multiline, d.quoting⟩)
      else
        if e.isEmpty then .ok (k, ⟨c, e, d.multiline, d.quoting⟩) else .error .assertionError

/-- The loop (text.py:2325-2345). -/
def checkItems (ks : Kind) : List (Obj × Val) → Except ArgErr (Delims Char)
  | [] => .ok []
  | x :: rest =>
    match checkItem ks x with
    | .error e => .error e
    | .ok d =>
      match checkItems ks rest with
      | .error e => .error e
      | .ok ds => .ok (d :: ds)

/-- The items of a mapping from strings of kind `k` to Delimiters of strings of kind `k`. For text.py:2240-2257. -/
def typed (k : Kind) (ds : Delims Char) : List (Obj × Val) :=
  ds.map fun x => (.ofKind k x.1, .delim ⟨.ofKind k x.2.close, .ofKind k x.2.escape, x.2.multiline, x.2.quoting⟩)

/-- `delimiters == ` the default mapping of kind `k` (text.py:2240-2257) -/
def isDefault (k : Kind) (items : List (Obj × Val)) : Bool :=
  decide (items.length = (typed k defaultDelims).length) && items.all (fun x => (typed k defaultDelims).contains x)

/-- The argument `delimiters`. For text.py:2677, 2735-2781. -/
inductive TArg where
  | omitted
  | pyNone
  | mapping (items : List (Obj × Val))
  /-- not a mapping, and its truth value -/
  | other (truthy : Bool)

/-- An element of `state`. For text.py:66-75, 2771-2772. -/
inductive Elem where
  | obj (o : Obj)
  | unhashable

/-- The argument `state`. For text.py:66-75, 2771-2772. -/
inductive TState where
  /-- None, (), '' and other false objects -/
  | falsy
  /-- a str or bytes -/
  | text (k : Kind) (s : List Char)
  /-- any other iterable -/
  | iter (l : List Elem)
  | notIterable

/-- What `_iterate_over_bytes(state)` yields (text.py:66-75, 2771-2772); None: TypeError. -/
def TState.elems : TState → Option (List Elem)
  | .falsy => some []
  | .text k s => some (s.map fun c => .obj (.ofKind k [c]))
  | .iter l => some l
  | .notIterable => none

/-- The loop over `state` (text.py:2772-2779). The keys of the dicts are of the type of `s`. -/
def enterT (E : Env Char) (ks : Kind) (ds : Delims Char) : List Elem → State Char → List (State Char × Option (List Char)) →
    Except ArgErr (State Char × List (State Char × Option (List Char)))
  | [], current, stack => .ok (current, stack)
  | .unhashable :: _, _, _ => .error .typeError
  | .obj o :: rest, current, stack =>
    match o.text? ks with
    | none => .error .valueError
    | some k =>
      match get E ds current k with
      | .push st => enterT E ks ds rest (some st) ((current, none) :: stack)
      | _ => .error .valueError

/-- From the tables on (text.py:2765-2781). -/
def withTables (E : Env Char) (ks : Kind) (s : List Char) (ds : Delims Char) (state : TState) :
    Except ArgErr (List (Tuple Char) × Option Err) :=
  match state.elems with
  | none => .error .typeError
  | some l =>
    match enterT E ks ds l none [] with
    | .error e => .error e
    | .ok (current, stack) => .ok (run E ds s s.length (split E ds s) ⟨current, stack, none, [], [], 0⟩)

/-- `_delimiters_to_state_and_tokens` and what follows, for a mapping that is not a default one (text.py:2752-2763). -/
def withMapping (E : Env Char) (ks : Kind) (s : List Char) (items : List (Obj × Val)) (state : TState) :
    Except ArgErr (List (Tuple Char) × Option Err) :=
  if items.isEmpty then .error .valueError
  else if items.any (fun x => decide (x.1 = .ofKind ks ['\\'])) then .error .valueError
  else
    match checkItems ks items with
    | .error e => .error e
    | .ok ds =>
      if (openers ds).any (fun o => (nestedClosers ds).contains o) then .error .valueError
      else withTables E ks s ds state

/-- `split_delimiters(s, delimiters, state=state)` (text.py:2677, 2735-2781), `s` of the kind `ks`: the exception that the
call raises, or what the generator it returns yields, and the exception that ends that. -/
def callT (E : Kind → Env Char) (ks : Kind) (s : List Char) (arg : TArg) (state : TState) :
    Except ArgErr (List (Tuple Char) × Option Err) :=
  match arg with
  | .omitted => withTables (E ks) ks s defaultDelims state
  | .pyNone => withTables (E ks) ks s defaultDelims state
  | .other truthy => if truthy then .error .notMapping else .error .valueError
  | .mapping items =>
    if isDefault .str items || isDefault .bytes items then withTables (E ks) ks s defaultDelims state
    else withMapping (E ks) ks s items state

end Big.SD
