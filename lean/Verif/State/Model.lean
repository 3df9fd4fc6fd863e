/-!
# Model of `StateManager`, `accessor` and `dispatch` (big/state.py)

Callbacks (on_enter, on_exit, observers, dispatched methods) are arbitrary programs: they can read
and change the state manager through its public attributes, catch the exceptions that raises, raise
exceptions, and keep information of their own (a value of type W, which stands for everything else
in the Python process). Python's recursion limit is the depth `d`: assigning to `.state` with no
depth left raises RecursionError.
-/
namespace Big.State

/-- Exceptions. For state.py. -/
inductive Exc where
  | typeError | valueError | transitionError | recursionError | attributeError | other (n : Nat)
  deriving DecidableEq, Repr

/-- A callback. S are state objects, O observers, W everything else. `set s k` assigns s (none is
None) to `.state` and goes on with k, given the exception that raised, if any. For state.py:238-239. -/
inductive Prog (S O W : Type) where
  | done
  | raise (e : Exc)
  | set (s : Option S) (k : Option Exc → Prog S O W)
  | getState (k : Option S → Prog S O W)
  | getNext (k : Option S → Prog S O W)
  | getObservers (k : List O → Prog S O W)
  | setObservers (l : List O) (k : Prog S O W)
  | getW (k : W → Prog S O W)
  | setW (w : W) (k : Prog S O W)

/-- What a StateManager was built with, and the callbacks of its state objects and observers.
`onExit s` is none if on_exit is disabled or s has no such attribute, likewise `onEnter`. `classOk`
is true if state_class is None or the value is an instance of it. `same` is `==` of observers. For state.py:234-239. -/
structure Cfg (S O W : Type) where
  onExit : S → Option (Prog S O W)
  onEnter : S → Option (Prog S O W)
  observer : O → Prog S O W
  classOk : Option S → Bool
  same : O → O → Bool
  /-- getattr(s, name): the method of that name, if there is one. -/
  method : S → String → Option (Prog S O W)

/-- Attributes of a StateManager (state.py:192, 251, 279-281), and the rest of the world. -/
structure Mgr (S O W : Type) where
  state : Option S
  nxt : Option S
  observers : List O
  copy : List O
  tuple : List O
  w : W

/-- Things that happen, with the depth of the assignment to `.state` they happen in, and the values
of `.state` and `.next` at that time. -/
inductive Ev (S O : Type) where
  | exit (d : Nat) (s : S) (state nxt : Option S)
  | observe (d : Nat) (o : O) (state nxt : Option S)
  /-- `self.__state = state` (state.py:241) was executed. -/
  | switched (d : Nat) (s : S)
  | enter (d : Nat) (s : S) (state nxt : Option S)
  /-- An assignment to `.state` was refused or ended by an exception, or completed (none). -/
  | assigned (d : Nat) (s : Option S) (r : Option Exc)
  /-- A method called by dispatch. -/
  | method (s : S) (name : String)
  deriving DecidableEq, Repr

/-- Outcome of running something: exception if any, manager after it, and what happened. For state.py:238-239. -/
abbrev Res (S O W : Type) := Option Exc × Mgr S O W × List (Ev S O)

variable {S O W : Type}

/-- Run a callback; `setter` is what assigning to `.state` does. For state.py:238-239. -/
def Prog.run (setter : Option S → Mgr S O W → Res S O W) : Prog S O W → Mgr S O W → Res S O W
  | .done, m => (none, m, [])
  | .raise e, m => (some e, m, [])
  | .set s k, m =>
    let r := setter s m
    let r' := (k r.1).run setter r.2.1
    (r'.1, r'.2.1, r.2.2 ++ r'.2.2)
  | .getState k, m => (k m.state).run setter m
  | .getNext k, m => (k m.nxt).run setter m
  | .getObservers k, m => (k m.observers).run setter m
  | .setObservers l k, m => k.run setter { m with observers := l }
  | .getW k, m => (k m.w).run setter m
  | .setW w k, m => k.run setter { m with w := w }

/-- Log the event, then run the callback if there is one. For state.py:238-239. -/
def callback (run : Prog S O W → Mgr S O W → Res S O W) (e : Ev S O) :
    Option (Prog S O W) → Mgr S O W → Res S O W
  | none, m => (none, m, [])
  | some p, m => let r := run p m; (r.1, r.2.1, e :: r.2.2)

/-- `for o in self._observers_tuple: o(self)` (state.py:238-239) -/
def callObservers (run : Prog S O W → Mgr S O W → Res S O W) (f : O → Prog S O W) (d : Nat) :
    List O → Mgr S O W → Res S O W
  | [], m => (none, m, [])
  | o :: os, m =>
    let r := callback run (.observe d o m.state m.nxt) (some (f o)) m
    match r.1 with
    | some e => (some e, r.2.1, r.2.2)
    | none =>
      let r' := callObservers run f d os r.2.1
      (r'.1, r'.2.1, r.2.2 ++ r'.2.2)

/-- `==` of lists. For state.py:235-237. -/
def listSame (same : O → O → Bool) : List O → List O → Bool
  | [], [] => true
  | a :: l, b :: r => same a b && listSame same l r
  | _, _ => false

/-- state.py:235-237 -/
def refresh (same : O → O → Bool) (m : Mgr S O W) : Mgr S O W :=
  if listSame same m.observers m.copy then m
  else { m with copy := m.observers, tuple := m.observers }

/-- state.py:234-239 -/
def observersStep (c : Cfg S O W) (run : Prog S O W → Mgr S O W → Res S O W) (d : Nat)
    (m : Mgr S O W) : Res S O W :=
  if m.observers = [] then (none, m, []) else
  let m := refresh c.same m
  callObservers run c.observer d m.tuple m

/-- state.py:230-233; getattr(None, name, None) is None. -/
def exitStep (c : Cfg S O W) (run : Prog S O W → Mgr S O W → Res S O W) (d : Nat)
    (m : Mgr S O W) : Res S O W :=
  match m.state with
  | none => (none, m, [])
  | some a => callback run (.exit d a m.state m.nxt) (c.onExit a) m

/-- state.py:246-249 -/
def enterStep (c : Cfg S O W) (run : Prog S O W → Mgr S O W → Res S O W) (d : Nat) (s : S)
    (m : Mgr S O W) : Res S O W :=
  callback run (.enter d s m.state m.nxt) (c.onEnter s) m

/-- Two steps in a row; the second is not reached if the first raises. For state.py:227-249. -/
def andThen (r : Res S O W) (f : Mgr S O W → Res S O W) : Res S O W :=
  match r.1 with
  | some e => (some e, r.2.1, r.2.2)
  | none => ((f r.2.1).1, (f r.2.1).2.1, r.2.2 ++ (f r.2.1).2.2)

/-- The checks at the start (state.py:199-225); none if the transition goes ahead. -/
def refuse [DecidableEq S] (c : Cfg S O W) (s : Option S) (m : Mgr S O W) : Option Exc :=
  if !c.classOk s then some .typeError
  else if s = none then some .valueError
  else if m.nxt ≠ none then some .transitionError
  else if s = m.state then some .transitionError
  else none

/-- state.py:241-242 -/
def switchStep (d : Nat) (s : S) (m : Mgr S O W) : Res S O W :=
  (none, { m with state := some s, nxt := none }, [.switched d s])

/-- The transition itself (state.py:227-249). -/
def transition (c : Cfg S O W) (run : Prog S O W → Mgr S O W → Res S O W) (d : Nat) (s : S)
    (m : Mgr S O W) : Res S O W :=
  andThen (exitStep c run d { m with nxt := some s }) fun m =>
  andThen (observersStep c run d m) fun m =>
  andThen (switchStep d s m) fun m =>
  enterStep c run d s m

/-- The setter after its checks. For state.py:198-249. -/
def setBody [DecidableEq S] (c : Cfg S O W) (run : Prog S O W → Mgr S O W → Res S O W) (d : Nat)
    (s : Option S) (m : Mgr S O W) : Res S O W :=
  match refuse c s m, s with
  | some e, _ => (some e, m, [])
  | none, some s => transition c run d s m
  | none, none => (none, m, [])

/-- Add the event that the assignment ended. For state.py:198-249. -/
def logged (d : Nat) (s : Option S) (r : Res S O W) : Res S O W :=
  (r.1, r.2.1, r.2.2 ++ [.assigned d s r.1])

/-- `manager.state = s` (state.py:198-249), with depth d left. -/
def setter [DecidableEq S] (c : Cfg S O W) : Nat → Option S → Mgr S O W → Res S O W
  | 0, s, m => logged 0 s (some .recursionError, m, [])
  | d + 1, s, m => logged (d + 1) s (setBody c (Prog.run (setter c d)) (d + 1) s m)

/-- Run a callback or any other code that uses the manager, at depth d. For state.py:425-429. -/
def runAt [DecidableEq S] (c : Cfg S O W) (d : Nat) (p : Prog S O W) (m : Mgr S O W) : Res S O W :=
  p.run (setter c d) m

/-- A new object before `self.state = state` (state.py:192, 251, 279-281). -/
def blank (w : W) : Mgr S O W := ⟨none, none, [], [], [], w⟩

/-- StateManager(s) (state.py:256-282). -/
def new [DecidableEq S] (c : Cfg S O W) (d : Nat) (s : Option S) (w : W) : Res S O W :=
  setter c d s (blank w)

/-- A method decorated with dispatch (state.py:425-429): the method named prefix + name + suffix of
the current state; None has no such methods. -/
def dispatch [DecidableEq S] (c : Cfg S O W) (d : Nat) (pre name suf : String) (m : Mgr S O W) :
    Res S O W :=
  match m.state with
  | none => (some .attributeError, m, [])
  | some s =>
    match c.method s (pre ++ name ++ suf) with
    | none => (some .attributeError, m, [])
    | some p => callback (runAt c d) (.method s (pre ++ name ++ suf)) (some p) m

/-- Something a program does with a state machine object: run code, or call a dispatched method. -/
inductive Step (S O W : Type) where
  | code (p : Prog S O W)
  | event (pre name suf : String)

/-- One step, at depth d. -/
def step [DecidableEq S] (c : Cfg S O W) (d : Nat) : Step S O W → Mgr S O W → Res S O W
  | .code p, m => runAt c d p m
  | .event pre name suf, m => dispatch c d pre name suf m

/-- A history: exceptions are caught after each step. Returns the manager and what happened. -/
def history [DecidableEq S] (c : Cfg S O W) (d : Nat) : List (Step S O W) → Mgr S O W →
    Mgr S O W × List (Ev S O)
  | [], m => (m, [])
  | x :: xs, m =>
    let r := step c d x m
    let r' := history c d xs r.2.1
    (r'.1, r.2.2 ++ r'.2)

/-- The property made by accessor (state.py:323-332): reading it. -/
def accessorGet (m : Mgr S O W) : Option S := m.state
/-- Setting it (state.py:327-329). -/
def accessorSet [DecidableEq S] (c : Cfg S O W) (d : Nat) (s : Option S) (m : Mgr S O W) :
    Res S O W := setter c d s m

end Big.State
