import Verif.Multisplit.Tables2
/-!
# Model of multisplit as it runs: a generator, with a cache of patterns that lasts between calls

`Multisplit.Model` models multisplit as a function of the string, the separators and the options. Here is what the code
does: `_separators_to_re` remembers the patterns it made, by the *object* passed as separators if that can be hashed
(text.py:819-853); the function that splits is a generator, which looks at the separators when it is first asked for a
value, not when it is made (text.py:972-1092); and an object may change in between, or after its pattern was remembered.

Simplifications: the separators are strings of the same type as `s` (bad arguments are C74's subject); no separator is
empty; `s` and separators are str, or all bytes, throughout. Which patterns `functools.lru_cache` forgets, and when, is
left open.
-/
namespace Big.MS

variable {α : Type} [DecidableEq α]

/-- An object passed as separators: a tuple; a frozenset, with the order it is iterated over; any other object, known
by its identity, like a list or an instance of a class. A str is cut up into a tuple by multistrip, and is here the
tuple of its characters: iterating over it gives the same, and neither can change. For text.py:849-852. -/
inductive SepObj (α : Type) where
  | tuple (l : List (List α))
  | frozen (l : List (List α))
  | ref (id : Nat)

/-- The objects that a hash key can be: the key of a ref that can be hashed is its identity (the `__eq__` and `__hash__`
of `object`). For text.py:819. -/
inductive KeyObj (α : Type) where
  | tuple (l : List (List α))
  | frozen (l : List (List α))
  | ident (id : Nat)

/-- Python's `==` of such objects. -/
def KeyObj.eq : KeyObj α → KeyObj α → Bool
  | .tuple a, .tuple b => a == b
  | .frozen a, .frozen b => a.all b.contains && b.all a.contains
  | .ident i, .ident j => i == j
  | _, _ => false

/-- What makes up a pattern (text.py:819-843): `sepRe seps separate` is the pattern, in a group if `keep`. -/
structure Pat (α : Type) where
  seps : List (List α)
  separate : Bool
  keep : Bool

/-- An entry of the `lru_cache` of `__separators_to_re` (text.py:819): the arguments and the result. -/
structure Entry (α : Type) where
  obj : KeyObj α
  separate : Bool
  keep : Bool
  pat : Pat α

/-- The state between calls: the contents of the objects, which of them can be hashed, and the cache.
For text.py:849-852. -/
structure Store (α : Type) where
  cont : Nat → List (List α)
  hashable : Nat → Bool
  cache : List (Entry α)

/-- What iterating over the object gives. For text.py:819-843. -/
def Store.contents (σ : Store α) : SepObj α → List (List α)
  | .tuple l => l
  | .frozen l => l
  | .ref i => σ.cont i

/-- `try: hash(separators) except TypeError: separators = tuple(separators)` (text.py:849-852). -/
def Store.key (σ : Store α) : SepObj α → KeyObj α
  | .tuple l => .tuple l
  | .frozen l => .frozen l
  | .ref i => if σ.hashable i then .ident i else .tuple (σ.cont i)

/-- `__separators_to_re(separators, is_bytes, separate, keep)`, memoised (text.py:819-843). -/
def Store.memo (σ : Store α) (obj : SepObj α) (separate keep : Bool) : Pat α × Store α :=
  let k := σ.key obj
  match σ.cache.find? (fun e => e.obj.eq k && e.separate == separate && e.keep == keep) with
  | some e => (e.pat, σ)
  | none =>
    let pat : Pat α := ⟨σ.contents obj, separate, keep⟩
    (pat, { σ with cache := ⟨k, separate, keep, pat⟩ :: σ.cache })

/-- multistrip (text.py:888-955), which makes a tuple of its separators first. -/
def Store.strip (σ : Store α) (nl : α) (s : List α) (obj : SepObj α) (left right : Bool) :
    Except Err (List α) × Store α :=
  let seps := σ.contents obj
  if seps = [] then (.error .valueError, σ)
  else if [] ∈ seps then (.error .valueError, σ)
  else if !(left || right) then (.ok s, σ)
  else
    let (p, σ) := σ.memo (.tuple seps) false false
    let pat := sepRe p.seps p.separate
    let s1 := if left then restOr s (match0 pat s) else s
    (.ok (if right then preOr s1 (search (match0 (.seq pat (.look (atEnd nl)))) s1) else s1), σ)

/-- A generator that was made and not yet started: the arguments of `_multisplit` (text.py:972, 1276). -/
structure Gen (α : Type) where
  s : List α
  obj : SepObj α
  keep : Keep
  maxsplit : Option Int
  reverse : Bool
  separate : Bool
  strip : Strip
  reKeep : Bool

/-- The call `multisplit(s, separators, ...)` (text.py:1217-1276): it makes the generator. -/
def Store.call (σ : Store α) (nl : α) (s : List α) (obj : SepObj α) (keep : Keep) (maxsplit : Option Int)
    (reverse separate : Bool) (strip : Strip) : Except Err (Gen α) × Store α :=
  if σ.contents obj = [] then (.error .valueError, σ)
  else if strip = .no then
    (.ok ⟨s, obj, keep, maxsplit, reverse, separate, strip, decide (keep ≠ .no)⟩, σ)
  else
    match σ.strip nl s obj (stripSides strip maxsplit reverse).1 (stripSides strip maxsplit reverse).2 with
    | (.error e, σ) => (.error e, σ)
    | (.ok s', σ) =>
      (.ok ⟨s', obj, keep, if s' = [] then some 0 else maxsplit, reverse, separate,
        if strip = .progressive ∧ maxsplit = some (-1) then .yes else strip,
        decide (keep ≠ .no) || (decide (strip = .progressive) && decide (maxsplit ≠ some (-1)))⟩, σ)

/-- The generator runs (text.py:972-1092): `rev` is `_reversed_builtin_separators`. It looks at the separators in one go
before it yields anything. -/
def Store.run (σ : Store α) (rev : List (List α) → Option (List (List α))) (g : Gen α) : List (Item α) × Store α :=
  if g.maxsplit = some 0 then
    ((if g.keep = .asPairs then [.pair g.s []] else [.str g.s]), σ)
  else
    let n : Int := g.maxsplit.getD (-1)
    let reN : Int := if n = -1 then 0 else n
    let s' := if g.reverse then g.s.reverse else g.s
    let obj := if g.reverse then .tuple (revSeps rev (σ.contents g.obj)) else g.obj
    let (p, σ) := σ.memo obj g.separate g.reKeep
    let l := reSplit (match0 (sepRe p.seps p.separate)) p.keep reN s'
    let l := if g.strip = .progressive then progressive g.keep n l else l
    (emit g.keep (if g.reverse then (l.map List.reverse).reverse else l), σ)

/-- What may happen to the store between one call and another. -/
inductive StoreStep (nl : α) (rev : List (List α) → Option (List (List α))) : Store α → Store α → Prop
  /-- a call of multisplit -/
  | call (σ s obj keep maxsplit reverse separate strip) :
      StoreStep nl rev σ (σ.call nl s obj keep maxsplit reverse separate strip).2
  /-- a call of multistrip -/
  | strip (σ s obj left right) : StoreStep nl rev σ (σ.strip nl s obj left right).2
  /-- a generator is started -/
  | run (σ g) : StoreStep nl rev σ (σ.run rev g).2
  /-- an object that cannot be hashed, such as a list, changes -/
  | change (σ : Store α) (i l) (h : σ.hashable i = false) :
      StoreStep nl rev σ { σ with cont := fun j => if j = i then l else σ.cont j }
  /-- the cache forgets some of what it knows -/
  | forget (σ : Store α) (p : Entry α → Bool) : StoreStep nl rev σ { σ with cache := σ.cache.filter p }

/-- Every state a program can get into, starting with an empty cache. -/
inductive StoreReach (nl : α) (rev : List (List α) → Option (List (List α))) (hashable : Nat → Bool) :
    Store α → Prop
  | start (cont) : StoreReach nl rev hashable ⟨cont, hashable, []⟩
  | step {σ σ'} : StoreReach nl rev hashable σ → StoreStep nl rev σ σ' → StoreReach nl rev hashable σ'

end Big.MS
