/-!
# BoundInnerClass and UnboundInnerClass (big/boundinnerclass.py:61-214)

Classes are numbered in the order in which they are created and live in a heap that only grows; the record of a
class is what the interpreter keeps of it: `__name__`, `__bases__`, `__mro__` and where its `__init__` comes from.
Outer instances are numbered too. The attributes of the type of an outer instance (already resolved along the
type's own MRO) are a function, `Attrs`. A decorated inner class is a non-data descriptor, so an entry in the
instance's `__dict__` wins over it.

Simplified: the exception for a missing `__dict__` (slots), layout conflicts when assigning to `__bases__`,
metaclasses and `__getattr__` hooks are not modelled; nor are `__repr__`, `__doc__`, `__module__`.
-/
namespace Big.BoundInner

/-- classes are numbered -/
scoped notation "Cls" => Nat
/-- An outer instance (the `outer` of boundinnerclass.py:69). -/
abbrev Outer := Nat

/-- The values passed to an `__init__`. For boundinnerclass.py:166, 170. -/
inductive Arg where
  | outer (o : Outer)
  /-- None: what a dead weak reference yields -/
  | nothing
  | user (n : Nat)
  deriving DecidableEq, Repr

/-- The `__init__` in a class's own `__dict__`. For boundinnerclass.py:102-139, 163-192. -/
inductive Init where
  /-- there is none: inherited -/
  | inherit
  /-- written by the user -/
  | own
  /-- that of the Wrapper of a BoundInnerClass (boundinnerclass.py:168-170), with its closure -/
  | bind (o : Outer) (cls : Cls)
  deriving DecidableEq, Repr

/-- A class: `__name__`, `__bases__`, `__mro__`, and what its `__init__` is (boundinnerclass.py:102-139, 163-192). -/
structure ClassRec where
  name : String
  bases : List Cls
  mro : List Cls
  init : Init
  deriving DecidableEq, Repr

/-- The values of attributes, as far as `__get__` tells them apart. For boundinnerclass.py:75-101. -/
inductive Val where
  | cls (c : Cls)
  | other (n : Nat)
  deriving DecidableEq, Repr

/-- The attributes of a type. For boundinnerclass.py:116. -/
inductive Attr where
  /-- `@BoundInnerClass` (true) or `@UnboundInnerClass` (false) on a class -/
  | desc (bound : Bool) (c : Cls)
  | plain (v : Val)
  deriving DecidableEq, Repr

/-- Exceptions that Python raises in boundinnerclass.py:61-214. -/
inductive Err where
  | recursionError | typeError | indexError | attributeError
  deriving DecidableEq, Repr

/-- The class attributes of the class of each outer instance, by name (what `getattr(outer, name)` finds, boundinnerclass.py:116). -/
abbrev Attrs := Outer → String → Option Attr

/-- The classes that exist, and the outer instances with the caches of boundinnerclass.py:75-101. -/
structure State where
  heap : List ClassRec
  /-- the `__dict__` of each outer instance -/
  dict : Outer → String → Option Val
  /-- the outer instances that have not been destroyed -/
  alive : Outer → Bool

instance : Inhabited ClassRec := ⟨⟨"", [], [], .inherit⟩⟩

/-- The record of a class. For boundinnerclass.py:116-124. -/
def State.info (S : State) (c : Cls) : ClassRec := S.heap.getD c default

/-! ## Python's method resolution order (C3), which the interpreter computes for a new class -/

/-- The first head that is in no tail. For boundinnerclass.py:127-139, 163-192, 205-214. -/
def pick (ls : List (List Cls)) : Option Cls :=
  (ls.filterMap List.head?).find? fun h => ls.all fun l => !l.tail.contains h

/-- Take `h` off the lists it heads. For boundinnerclass.py:127-139, 163-192, 205-214. -/
def pop (h : Cls) (l : List Cls) : List Cls := if l.head? = some h then l.tail else l

/-- C3's merge; the number is a bound on the steps. For boundinnerclass.py:127-139, 163-192, 205-214. -/
def merge : Nat → List (List Cls) → Option (List Cls)
  | 0, ls => if ls.all List.isEmpty then some [] else none
  | n + 1, ls =>
    if ls.all List.isEmpty then some []
    else match pick ls with
      | none => none
      | some h => (merge n (ls.map (pop h))).map (h :: ·)

/-- The MRO of a class `c` with the given bases; None for Python's TypeError (inconsistent order, or the same
base twice). For boundinnerclass.py:127-139, 163-192, 205-214. -/
def linearize (mroOf : Cls → List Cls) (c : Cls) (bases : List Cls) : Option (List Cls) :=
  if bases.Nodup then
    let ls := bases.map mroOf ++ [bases]
    (merge (ls.map List.length).sum ls).map (c :: ·)
  else none

/-! ## The descriptor -/

/-- A computation's result and what it did to the state, also if it raised. -/
abbrev M (α : Type) := Except Err α × State

/-- `bases[0] == base` for the value found in outer (boundinnerclass.py:116-124). -/
def isBoundVersion (S : State) (v : Val) (base : Cls) : Except Err Bool :=
  match v with
  | .other _ => .ok false
  | .cls c =>
    match (S.info c).bases with
    | [] => .error .indexError
    | b :: _ => .ok (b == base)

/-- One round of the loop over `cls.__bases__` (boundinnerclass.py:103-125): `inherit_from`, and whether it is a bound
inner class. `getattr` is `getattr(outer, ·, None)`. -/
def step (getattr : State → String → M (Option Val)) (name : String) (S : State) (base : Cls) : M (Cls × Bool) :=
  if (S.info base).name ≠ name then
    match getattr S (S.info base).name with
    | (.error e, S') => (.error e, S')
    | (.ok none, S') => (.ok (base, false), S')
    | (.ok (some v), S') =>
      match isBoundVersion S' v base, v with
      | .error e, _ => (.error e, S')
      | .ok true, .cls w => (.ok (w, true), S')
      | .ok _, _ => (.ok (base, false), S')
  else (.ok (base, false), S)

/-- The loop (boundinnerclass.py:102-125). -/
def loop (getattr : State → String → M (Option Val)) (name : String) : State → List Cls → M (List (Cls × Bool))
  | S, [] => (.ok [], S)
  | S, b :: bs =>
    match step getattr name S b with
    | (.error e, S') => (.error e, S')
    | (.ok x, S') =>
      match loop getattr name S' bs with
      | (.error e, S'') => (.error e, S'')
      | (.ok xs, S'') => (.ok (x :: xs), S'')

/-- `_wrap`, the assignment to `__bases__` and the caching (boundinnerclass.py:127-139, 163-192, 205-214): the new
class is a subclass of `cls` first, and is stored in outer's `__dict__` under `cls.__name__`. -/
def wrap (o : Outer) (bound : Bool) (c : Cls) (S : State) (xs : List (Cls × Bool)) : M Cls :=
  let w := S.heap.length
  let bases := if xs.any (·.2) then c :: xs.map (·.1) else [c]
  match linearize (fun b => (S.info b).mro) w bases with
  | none => (.error .typeError, S)
  | some mro =>
    let r : ClassRec := ⟨(S.info c).name, bases, mro, if bound then .bind o c else .inherit⟩
    (.ok w, ⟨S.heap ++ [r], fun o' n => if o' = o ∧ n = (S.info c).name then some (.cls w) else S.dict o' n, S.alive⟩)

/-- `getattr(outer, name, None)`, with `get` for the descriptor's `__get__`. For boundinnerclass.py:69-139. -/
def lookup (A : Attrs) (get : State → Outer → Bool → Cls → M Cls) (S : State) (o : Outer) (name : String) :
    M (Option Val) :=
  match S.dict o name with
  | some v => (.ok (some v), S)
  | none =>
    match A o name with
    | none => (.ok none, S)
    | some (.plain v) => (.ok (some v), S)
    | some (.desc bound c) =>
      match get S o bound c with
      | (.error e, S') => (.error e, S')
      | (.ok w, S') => (.ok (some (.cls w)), S')

/-- `_Worker.__get__(outer, outer_class)` for an instance (boundinnerclass.py:69-139). The number is the depth of
recursion that is left; running out of it is RecursionError. -/
def bind (A : Attrs) : Nat → State → Outer → Bool → Cls → M Cls
  | 0, S, _, _, _ => (.error .recursionError, S)
  | n + 1, S, o, bound, c =>
    match loop (fun S name => lookup A (bind A n) S o name) (S.info c).name S (S.info c).bases with
    | (.error e, S') => (.error e, S')
    | (.ok xs, S') => wrap o bound c S' xs

/-- `o.name`. For boundinnerclass.py:69-139. -/
def get (A : Attrs) (n : Nat) (S : State) (o : Outer) (name : String) : M Val :=
  match lookup A (bind A n) S o name with
  | (.error e, S') => (.error e, S')
  | (.ok none, S') => (.error .attributeError, S')
  | (.ok (some v), S') => (.ok v, S')

/-- `Outer.name`, where `o` is an instance of Outer: `__get__(None, Outer)` returns `self.cls`
(boundinnerclass.py:91-92). -/
def getFromClass (A : Attrs) (o : Outer) (name : String) : Except Err Val :=
  match A o name with
  | none => .error .attributeError
  | some (.plain v) => .ok v
  | some (.desc _ c) => .ok (.cls c)

/-! ## Making instances -/

/-- The weak reference to an outer instance, called (boundinnerclass.py:166, 170). -/
def deref (S : State) (o : Outer) : Arg := if S.alive o then .outer o else .nothing

/-- `cls.__init__(self, *args)`: which class's own, user-written `__init__` runs, and with which arguments; None if
it is `object.__init__`. -/
def callInit (S : State) : Nat → Cls → List Arg → Option (Cls × List Arg)
  | 0, _, _ => none
  | n + 1, c, args =>
    match (S.info c).mro.find? fun k => (S.info k).init ≠ .inherit with
    | none => none
    | some k =>
      match (S.info k).init with
      | .inherit => none
      | .own => some (k, args)
      | .bind o cls => callInit S n cls (deref S o :: args)

/-- `cls(*args)` -/
def construct (S : State) (c : Cls) (args : List Arg) : Option (Cls × List Arg) := callInit S (S.heap.length + 1) c args

/-- Which class `super()` finds next, inside a method of class `k`, for an instance of class `c`. -/
def superOf (S : State) (c k : Cls) : List Cls := ((S.info c).mro.dropWhile (· ≠ k)).tail

/-! ## Histories -/

/-- What a program does: read an attribute of an instance; go through `super()` or call `__get__` itself, which does
not look in the instance's `__dict__`; drop the last reference to an outer instance. -/
inductive Op where
  | get (o : Outer) (name : String)
  | direct (o : Outer) (bound : Bool) (c : Cls)
  | die (o : Outer)

/-- One access or call by the program (boundinnerclass.py:69-139), or the end of an outer instance (166-170). -/
def exec (A : Attrs) (n : Nat) (S : State) : Op → State
  | .get o name => (Big.BoundInner.get A n S o name).2
  | .direct o b c => (bind A n S o b c).2
  | .die o => ⟨S.heap, S.dict, fun x => if x = o then false else S.alive x⟩

/-- A program: accesses and calls, one after another. -/
def run (A : Attrs) (n : Nat) (S : State) (ops : List Op) : State := ops.foldl (exec A n) S

end Big.BoundInner
