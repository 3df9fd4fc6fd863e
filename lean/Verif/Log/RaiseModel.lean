import Verif.Log.Model
/-!
# Log (big/log.py:85-155) when a call raises

The argument of log() and enter() is any object, and the clock may raise an exception.
-/
namespace Big.Log

/-- An argument: a str; another object that has a length (bytes, a list, ...; `v` says which); an object that has none
(an int, None, ...). For log.py:98-103. -/
inductive Val where
  | str (s : String) | sized (v len : Nat) | unsized (v : Nat)
  deriving DecidableEq, Repr

/-- `len(event)`; none if it raises TypeError. For log.py:127-134. -/
def Val.len? : Val → Option Nat
  | .str s => some s.length
  | .sized _ n => some n
  | .unsized _ => none

/-- `x + suffix`; none if it raises TypeError. For log.py:105-118. -/
def Val.plus? : Val → String → Option Val
  | .str s, t => some (.str (s ++ t))
  | _, _ => none

/-- Attributes of a Log (log.py:98-103); `last` is `end`, which is unset at first. -/
structure XSt where
  start : Int
  stack : List Val
  events : List (Int × Val × Nat)
  last : Option Int
  longest : Nat
  deriving DecidableEq

/-- The exceptions. For log.py. -/
inductive Exc where
  | clock | typeError | indexError
  deriving DecidableEq, Repr

/-- A new Log (log.py:85-88), the clock having returned t. -/
def XSt.new (t : Int) : XSt := ⟨t, [], [(0, .str "log start", 0)], none, "log start".length⟩

/-- reset (log.py:90-103): the clock is read first. `end` is not touched. -/
def xreset (l : XSt) : Option Int → XSt × Option Exc
  | none => (l, some .clock)
  | some t => ({ XSt.new t with last := l.last }, none)

/-- `log(event)` (log.py:127-134): the clock is read first, the length is taken last. -/
def xcall (l : XSt) (event : Val) : Option Int → XSt × Option Exc
  | none => (l, some .clock)
  | some t =>
    let l := { l with events := l.events ++ [(t - l.start, event, l.stack.length)], last := some (t - l.start) }
    match event.len? with
    | none => (l, some .typeError)
    | some n => ({ l with longest := max l.longest n }, none)

/-- enter (log.py:105-118) -/
def xenter (l : XSt) (subsystem : Val) (t : Option Int) : XSt × Option Exc :=
  match subsystem.plus? " start" with
  | none => (l, some .typeError)
  | some e =>
    match xcall l e t with
    | (l, some x) => (l, some x)
    | (l, none) => ({ l with stack := subsystem :: l.stack }, none)

/-- exit (log.py:120-125) -/
def xexit (l : XSt) (t : Option Int) : XSt × Option Exc :=
  match l.stack with
  | [] => (l, some .indexError)
  | s :: stack =>
    match s.plus? " end" with
    | none => ({ l with stack := stack }, some .typeError)
    | some e => xcall { l with stack := stack } e t

/-- What a user does. -/
inductive XOp where
  | log (event : Val) | enter (subsystem : Val) | exit | reset
  deriving DecidableEq, Repr

/-- One call, with what the clock does if it is read. -/
def xstep (l : XSt) : XOp × Option Int → XSt × Option Exc
  | (.log e, t) => xcall l e t
  | (.enter s, t) => xenter l s t
  | (.exit, t) => xexit l t
  | (.reset, t) => xreset l t

/-- The Log after a history (exceptions are caught). -/
def xrun (t₀ : Int) (h : List (XOp × Option Int)) : XSt := h.foldl (fun l o => (xstep l o).1) (XSt.new t₀)

/-- `__iter__` (log.py:136-155). -/
def xiterFrom : Int × Val × Nat → List (Int × Val × Nat) → List (Int × Int × Val × Nat)
  | (t, e, d), [] => [(t, 0, e, d)]
  | (t, e, d), x :: l => (t, x.1 - t, e, d) :: xiterFrom x l

/-- `__iter__` (log.py:136-155). -/
def xiter (l : XSt) : List (Int × Int × Val × Nat) :=
  match l.events with
  | [] => []
  | x :: l => xiterFrom x l

end Big.Log
