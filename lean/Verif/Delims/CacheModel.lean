import Verif.Delims.Single
/-!
# Model of split_delimiters as it is called: the mapping passed, the exported default mappings, and the remembered tables

`Delims.Model` models split_delimiters as a function of the string, the contents of the mapping and the state. Here is
what the code does with the mapping (text.py:2263-2297, 2669-2674, 2735-2763): it is compared with the two default mappings,
which are exported and can be changed like any dict; for those, tables made when the module was imported are used; for
others the tables are made by a memoised function, by the items of the mapping in order and by whether `s` is bytes.

Simplifications: a bytes string is the list of the characters with its codes; the keys and the delimiters of one mapping
are all str or all bytes; the elements of `state` are of the type of `s`. The tables made from delimiters are represented
by the delimiters they were made from. They are never changed once made: the generator only looks tokens up in them.
-/
namespace Big.SD

/-- str or bytes. For text.py:2279-2355. -/
inductive Kind where
  | str | bytes
  deriving DecidableEq, Repr

/-- Exceptions, with TypeError. For text.py. -/
inductive CallErr where
  | typeError
  | of (e : Err)
  deriving DecidableEq, Repr

/-- The argument `delimiters`: left out, None, or a mapping: the type of its strings, and its items.
For text.py:2677, 2735-2781. -/
inductive DelimArg where
  | omitted
  | pyNone
  | mapping (k : Kind) (ds : Delims Char)

/-- Delimiter.__eq__ (text.py:2207-2213). -/
def Delim.pyEq (a b : Delim Char) : Bool :=
  decide (a.close = b.close) && decide (a.escape = b.escape) && decide (a.quoting = b.quoting) &&
    decide (a.multiline = b.multiline)

/-- `==` of two items of a mapping. For text.py:2279-2355. -/
def itemEq (x y : List Char × Delim Char) : Bool := decide (x.1 = y.1) && x.2.pyEq y.2

/-- `==` of two tuples of items. For text.py:2279-2355. -/
def itemsEq : Delims Char → Delims Char → Bool
  | [], [] => true
  | x :: a, y :: b => itemEq x y && itemsEq a b
  | _, _ => false

/-- `==` of two dicts: as many items, and each item of one is one of the other. For text.py:2677, 2735-2781. -/
def dictEq (k : Kind) (a : Delims Char) (k' : Kind) (b : Delims Char) : Bool :=
  (a.isEmpty && b.isEmpty) || (decide (k = k') && decide (a.length = b.length) && a.all (fun x => b.any (itemEq x)))

/-- What lasts between calls: the contents of split_delimiters_default_delimiters and
split_delimiters_default_delimiters_bytes, and the cache of _delimiters_to_state_and_tokens: the arguments, and the
delimiters that the tables were made from. For text.py:2240-2257, 2673-2674. -/
structure World where
  dflt : Kind → Delims Char
  cache : List ((Delims Char × Kind) × Delims Char)

/-- When the module has been imported (text.py:2240-2257, 2673-2674): both calls that make the default tables have filled
the cache. -/
def World.start : World :=
  ⟨fun _ => defaultDelims, [((defaultDelims, .bytes), defaultDelims), ((defaultDelims, .str), defaultDelims)]⟩

/-- `_delimiters_to_state_and_tokens(tuple(delimiters.items()), is_bytes)` (text.py:2279-2355), memoised; an exception is
not remembered. -/
def World.tables (σ : World) (ks k : Kind) (ds : Delims Char) : Except CallErr (Delims Char) × World :=
  match σ.cache.find? (fun e => itemsEq e.1.1 ds && decide (e.1.2 = ks) && decide (k = ks)) with
  | some e => (.ok e.2, σ)
  | none =>
    if k ≠ ks then (.error .typeError, σ)
    else if (openers ds).any (fun o => (nestedClosers ds).contains o) then (.error (.of .valueError), σ)
    else (.ok ds, { σ with cache := ((ds, ks), ds) :: σ.cache })

/-- From the tables on (text.py:2765-2781). -/
def fromTables (E : Env Char) (s : List Char) (ds : Delims Char) (state : List (List Char)) :
    Except CallErr (List (Tuple Char) × Option Err) :=
  match enter E ds state none [] with
  | .error e => .error (.of e)
  | .ok (current, stack) => .ok (run E ds s s.length (split E ds s) ⟨current, stack, none, [], [], 0⟩)

/-- The call `split_delimiters(s, delimiters, state=state)` (text.py:2677, 2735-2781), where `s` is of the type `ks`. -/
def World.call (E : Kind → Env Char) (σ : World) (ks : Kind) (s : List Char) (arg : DelimArg)
    (state : List (List Char)) : Except CallErr (List (Tuple Char) × Option Err) × World :=
  let arg := match arg with
    | .omitted => none     -- `delimiters` is split_delimiters_default_delimiters
    | .pyNone => none
    | .mapping k ds =>
      if dictEq k ds .str (σ.dflt .str) || dictEq k ds .bytes (σ.dflt .bytes) then none else some (k, ds)
  match arg with
  | none => (fromTables (E ks) s defaultDelims state, σ)
  | some (k, ds) =>
    if ds.isEmpty then (.error (.of .valueError), σ)
    else if k = ks ∧ [(E ks).backslash] ∈ openers ds then (.error (.of .valueError), σ)
    else
      match σ.tables ks k ds with
      | (.error e, σ) => (.error e, σ)
      | (.ok ds', σ) => (fromTables (E ks) s ds' state, σ)

/-- What may happen between one call and another. -/
inductive WorldStep (E : Kind → Env Char) : World → World → Prop
  /-- a call of split_delimiters -/
  | call (σ ks s arg state) : WorldStep E σ (World.call E σ ks s arg state).2
  /-- the program changes an exported mapping -/
  | change (σ : World) (k ds) (h : (openers ds).Nodup) :
      WorldStep E σ { σ with dflt := fun k' => if k' = k then ds else σ.dflt k' }
  /-- the cache forgets something (it does not: maxsize=None; but it could be cleared) -/
  | forget (σ : World) (p) : WorldStep E σ { σ with cache := σ.cache.filter p }

/-- Every state a program can get into. -/
inductive WorldReach (E : Kind → Env Char) : World → Prop
  | start : WorldReach E World.start
  | step {σ σ'} : WorldReach E σ → WorldStep E σ σ' → WorldReach E σ'

end Big.SD
