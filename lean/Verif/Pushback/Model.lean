/-!
# Model of `PushbackIterator` (big/itertools.py)

The wrapped iterator is any object with `__next__`: a state machine whose step returns a value,
raises StopIteration, or raises another exception. `bool()` of the wrapped object, which the code
takes in `if self.i:`, is modelled too, because an iterator may define `__bool__` or `__len__`.
-/
namespace Big.Pushback

/-- What calling `__next__` of the wrapped iterator does. For itertools.py:45-49. -/
inductive Out (α : Type) where
  | val (a : α) | stop | exc
  deriving DecidableEq, Repr

/-- A wrapped iterator with states σ. `bool` is `bool(i)`, which may change the iterator. For itertools.py:44, 60, 70. -/
structure Iter (σ α : Type) where
  next : σ → Out α × σ
  bool : σ → Bool × σ := fun s => (true, s)

/-- itertools.py:20-26. The head of `stack` is its top (the end of the Python list). -/
structure St (σ α : Type) where
  i : Option σ
  stack : List α

/-- The operations a user can make. -/
inductive Op (α : Type) where
  | push (a : α) | next | nextD (d : α) | bool
  deriving DecidableEq, Repr

/-- What an operation gives back. For itertools.py:45-49. -/
inductive Ret (α : Type) where
  | unit | val (a : α) | stopIteration | exc | bool (b : Bool)
  deriving DecidableEq, Repr

variable {σ α : Type}

/-- PushbackIterator(iterable) (itertools.py:22-26); none is None. -/
def init (i : Option σ) : St σ α := ⟨i, []⟩

/-- push (itertools.py:31-39) -/
def push (a : α) (t : St σ α) : St σ α := ⟨t.i, a :: t.stack⟩

/-- `if self.i:` (itertools.py:44, 60, 70): None is false; else bool() of the iterator. Returns the
iterator if true, and the iterator to store if false. -/
def test (it : Iter σ α) : Option σ → Option σ × Option σ
  | none => (none, none)
  | some s => if (it.bool s).1 then (some (it.bool s).2, none) else (none, some (it.bool s).2)

/-- After `next(self.i)` (itertools.py:45-49): a bare `except:` catches everything. -/
def afterNext : Out α × σ → Ret α × St σ α
  | (.val a, s) => (.val a, ⟨some s, []⟩)
  | (.stop, _) => (.stopIteration, ⟨none, []⟩)
  | (.exc, _) => (.stopIteration, ⟨none, []⟩)

/-- `__next__` (itertools.py:41-49) -/
def next (it : Iter σ α) (t : St σ α) : Ret α × St σ α :=
  match t.stack with
  | a :: l => (.val a, ⟨t.i, l⟩)
  | [] =>
    match test it t.i with
    | (some s, _) => afterNext (it.next s)
    | (none, i) => (.stopIteration, ⟨i, []⟩)

/-- After `next(self.i)` in `.next` (itertools.py:61-65): only StopIteration is caught. -/
def afterNextD (d : α) : Out α × σ → Ret α × St σ α
  | (.val a, s) => (.val a, ⟨some s, []⟩)
  | (.stop, _) => (.val d, ⟨none, []⟩)
  | (.exc, s) => (.exc, ⟨some s, []⟩)

/-- `.next(default)` (itertools.py:51-65) -/
def nextD (it : Iter σ α) (d : α) (t : St σ α) : Ret α × St σ α :=
  match t.stack with
  | a :: l => (.val a, ⟨t.i, l⟩)
  | [] =>
    match test it t.i with
    | (some s, _) => afterNextD d (it.next s)
    | (none, i) => (.val d, ⟨i, []⟩)

/-- After `next(self.i)` in `__bool__` (itertools.py:71-77). -/
def afterBool : Out α × σ → Ret α × St σ α
  | (.val a, s) => (.bool true, push a ⟨some s, []⟩)
  | (.stop, _) => (.bool false, ⟨none, []⟩)
  | (.exc, s) => (.exc, ⟨some s, []⟩)

/-- `__bool__` (itertools.py:67-77) -/
def bool (it : Iter σ α) (t : St σ α) : Ret α × St σ α :=
  match t.stack with
  | _ :: _ => (.bool true, t)
  | [] =>
    match test it t.i with
    | (some s, _) => afterBool (it.next s)
    | (none, i) => (.bool false, ⟨i, []⟩)

/-- One operation. -/
def step (it : Iter σ α) (t : St σ α) : Op α → Ret α × St σ α
  | .push a => (.unit, push a t)
  | .next => next it t
  | .nextD d => nextD it d t
  | .bool => bool it t

/-- A history: what each operation returned, and the state at the end. -/
def run (it : Iter σ α) : St σ α → List (Op α) → List (Ret α) × St σ α
  | t, [] => ([], t)
  | t, o :: os =>
    let r := step it t o
    let rest := run it r.2 os
    (r.1 :: rest.1, rest.2)

/-- The iterator of a list. -/
def listIter : Iter (List α) α where
  next
    | [] => (.stop, [])
    | a :: l => (.val a, l)

/-- What a Ret of `__next__` is as an outcome. -/
def Ret.out : Ret α → Out α
  | .val a => .val a
  | .exc => .exc
  | _ => .stop
/-- What a Ret of `__bool__` is as a Bool. -/
def Ret.isTrue : Ret α → Bool
  | .bool b => b
  | _ => false

/-- A PushbackIterator is itself an iterator, with a `__bool__`, and can be wrapped again. -/
def asIter (it : Iter σ α) : Iter (St σ α) α where
  next t := ((next it t).1.out, (next it t).2)
  bool t := ((bool it t).1.isTrue, (bool it t).2)

end Big.Pushback
