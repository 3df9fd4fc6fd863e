import Verif.BoundInner.Model
/-!
# Bound inner classes in several threads (big/boundinnerclass.py:61-214)

`_Worker.__get__` without the assumption that nothing else runs meanwhile: a program whose steps are what it does to
memory that threads share. Any number of threads read attributes of any instances; their steps are interleaved in
any order.

Simplified: a thread reads an attribute of the instance (`o.Inner`), or has `__get__` called by itself or through `super()` for the
same class (not for a class of the same name that it overrides); building a Wrapper, from the class statement to the assignment of `__bases__`, is one step, since
until it is stored no other thread can reach it; further as in Model.lean.
-/
namespace Big.BoundInner

/-- What is left of a computation that reads attributes of one instance, `outer`. For boundinnerclass.py:69-139. -/
inductive Prog (α : Type) where
  /-- it returned or raised -/
  | done (r : Except Err α)
  /-- look up `name` in `outer.__dict__` -/
  | read (name : String) (k : Option Val → Prog α)
  /-- look at the name and the bases of a class -/
  | look (c : Cls) (k : ClassRec → Prog α)
  /-- make the Wrapper, of `cls` and these bases (boundinnerclass.py:127-133, 163-192, 205-214) -/
  | build (bound : Bool) (c : Cls) (xs : List (Cls × Bool)) (k : Except Err Cls → Prog α)
  /-- `outer.__dict__[name] = Wrapper` (boundinnerclass.py:138) -/
  | store (name : String) (w : Cls) (k : Prog α)

/-- Go on with the result; an exception propagates. For boundinnerclass.py:69-139. -/
def Prog.andThen {α β : Type} : Prog α → (α → Prog β) → Prog β
  | .done (.ok a), f => f a
  | .done (.error e), _ => .done (.error e)
  | .read n k, f => .read n fun v => (k v).andThen f
  | .look c k, f => .look c fun r => (k r).andThen f
  | .build b c xs k, f => .build b c xs fun r => (k r).andThen f
  | .store n w k, f => .store n w (k.andThen f)

/-- The record of the Wrapper (boundinnerclass.py:127-133, 163-192, 205-214); None if assigning `__bases__` raises TypeError. -/
def newClass (o : Outer) (bound : Bool) (c : Cls) (S : State) (xs : List (Cls × Bool)) : Option ClassRec :=
  let bases := if xs.any (·.2) then c :: xs.map (·.1) else [c]
  (linearize (fun b => (S.info b).mro) S.heap.length bases).map fun mro =>
    ⟨(S.info c).name, bases, mro, if bound then .bind o c else .inherit⟩

/-- One step of a computation on the instance `o`. For boundinnerclass.py:69-139. -/
def Prog.next {α : Type} (o : Outer) : Prog α → State → Prog α × State
  | .done r, S => (.done r, S)
  | .read n k, S => (k (S.dict o n), S)
  | .look c k, S => (k (S.info c), S)
  | .build b c xs k, S =>
    match newClass o b c S xs with
    | none => (k (.error .typeError), S)
    | some r => (k (.ok S.heap.length), ⟨S.heap ++ [r], S.dict, S.alive⟩)
  | .store n w k, S => (k, ⟨S.heap, fun o' n' => if o' = o ∧ n' = n then some (.cls w) else S.dict o' n', S.alive⟩)

/-- `getattr(outer, name, None)` (boundinnerclass.py:116): the instance's `__dict__`, then the class, whose decorated
attributes have the `__get__` given. -/
def lookupP (A : Attrs) (getP : Bool → Cls → Prog Cls) (o : Outer) (name : String) : Prog (Option Val) :=
  .read name fun d =>
    match d with
    | some v => .done (.ok (some v))
    | none =>
      match A o name with
      | none => .done (.ok none)
      | some (.plain v) => .done (.ok (some v))
      | some (.desc bound c) => (getP bound c).andThen fun w => .done (.ok (some (.cls w)))

/-- `bases[0] == base` (boundinnerclass.py:118-121). -/
def isBoundVersionP (v : Val) (base : Cls) : Prog Bool :=
  match v with
  | .other _ => .done (.ok false)
  | .cls c => .look c fun r =>
    match r.bases with
    | [] => .done (.error .indexError)
    | b :: _ => .done (.ok (b == base))

/-- Which class to inherit from, for one base, and whether it is a bound one (boundinnerclass.py:103-125). -/
def stepP (getattr : String → Prog (Option Val)) (name : String) (base : Cls) : Prog (Cls × Bool) :=
  .look base fun r =>
    if r.name ≠ name then
      (getattr r.name).andThen fun d =>
        match d with
        | none => .done (.ok (base, false))
        | some v => (isBoundVersionP v base).andThen fun is =>
          match is, v with
          | true, .cls w => .done (.ok (w, true))
          | _, _ => .done (.ok (base, false))
    else .done (.ok (base, false))

/-- The loop over `cls.__bases__` (boundinnerclass.py:102-125). -/
def loopP (getattr : String → Prog (Option Val)) (name : String) : List Cls → Prog (List (Cls × Bool))
  | [] => .done (.ok [])
  | b :: bs => (stepP getattr name b).andThen fun x => (loopP getattr name bs).andThen fun xs => .done (.ok (x :: xs))

/-- `__get__` (boundinnerclass.py:69-139); the number is the depth of recursion that is left. -/
def bindP (A : Attrs) (o : Outer) : Nat → Bool → Cls → Prog Cls
  | 0, _, _ => .done (.error .recursionError)
  | n + 1, bound, c =>
    .look c fun r =>
      (loopP (lookupP A (bindP A o n) o) r.name r.bases).andThen fun xs =>
        .build bound c xs fun w =>
          match w with
          | .error e => .done (.error e)
          | .ok w => .store r.name w (.done (.ok w))

/-- `o.name` (boundinnerclass.py:69-139) -/
def getP (A : Attrs) (n : Nat) (o : Outer) (name : String) : Prog Val :=
  (lookupP A (bindP A o n) o name).andThen fun v =>
    match v with
    | none => .done (.error .attributeError)
    | some v => .done (.ok v)

/-- The same through `super()`, or by a call of `__get__`, which do not look in the instance's `__dict__`
(boundinnerclass.py:69-139). -/
def directP (A : Attrs) (n : Nat) (o : Outer) (name : String) : Prog Val :=
  match A o name with
  | none => .done (.error .attributeError)
  | some (.plain v) => .done (.ok v)
  | some (.desc bound c) => (bindP A o n bound c).andThen fun w => .done (.ok (.cls w))

/-- An access, `outer.name`, by some thread, that was started. For boundinnerclass.py:69-139. -/
structure Access where
  outer : Outer
  name : String
  prog : Prog Val

/-- What it returned or raised, once it has. For boundinnerclass.py:69-139. -/
def Access.result (a : Access) : Option (Except Err Val) :=
  match a.prog with
  | .done r => some r
  | _ => none

/-- The memory the threads share, and the accesses, in the order they were started. For boundinnerclass.py:69-139. -/
structure Threads where
  state : State
  accesses : List Access

/-- What happens next: some thread starts an access, as an attribute or directly; the one that does the `i`th access takes a step; an
outer instance is destroyed. For boundinnerclass.py:69-139, 166-170. -/
inductive Act where
  | start (o : Outer) (name : String)
  | direct (o : Outer) (name : String)
  | go (i : Nat)
  | die (o : Outer)

/-- For boundinnerclass.py:69-139, 166-170. -/
def Threads.act (A : Attrs) (n : Nat) (W : Threads) : Act → Threads
  | .start o name => ⟨W.state, W.accesses ++ [⟨o, name, getP A n o name⟩]⟩
  | .direct o name => ⟨W.state, W.accesses ++ [⟨o, name, directP A n o name⟩]⟩
  | .go i =>
    match W.accesses[i]? with
    | none => W
    | some a =>
      let x := a.prog.next a.outer W.state
      ⟨x.2, W.accesses.set i ⟨a.outer, a.name, x.1⟩⟩
  | .die o => ⟨⟨W.state.heap, W.state.dict, fun x => if x = o then false else W.state.alive x⟩, W.accesses⟩

/-- A schedule: every interleaving of every program's accesses is one. For boundinnerclass.py:69-139. -/
def Threads.run (A : Attrs) (n : Nat) (W : Threads) (acts : List Act) : Threads := acts.foldl (Threads.act A n) W

end Big.BoundInner
