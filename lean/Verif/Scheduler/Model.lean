import Verif.Heap.Lemmas2
/-
Model of big/scheduler.py: Event, Scheduler, ThreadSafeRegulator, and threads using them.

Simplifications: time and priority are integers (the code allows any type with consistent
comparison and arithmetic); `regulator.now()` is a clock that never goes back, as Regulator's
documentation demands; the regulator's lock is correct, so each `with self.regulator.lock:` body is
one atomic step (LockModel.lean has the bodies step by step; C126_atomic shows that this is the same); Event has no __eq__, so Python compares events by identity, which the model
represents by the pair (owning scheduler, sequence number).
-/
namespace Big.Scheduler
open Big.Heap

variable {β : Type}

/-- class Event (scheduler.py:185-198). `owner` identifies the scheduler that made it. -/
structure Ev (β : Type) where
  owner : Nat
  event : β
  time : Int
  priority : Int
  sequence : Nat

/-- Event.__lt__ (scheduler.py:200-214), branch by branch. -/
def Ev.lt (a b : Ev β) : Bool :=
  if a.time < b.time then true
  else if a.time > b.time then false
  else if a.priority < b.priority then true
  else if a.priority > b.priority then false
  else if a.sequence < b.sequence then true
  else false

/-- `==` on events: object identity (see the file comment). For scheduler.py:300-302. -/
def Ev.same (a b : Ev β) : Bool := a.owner == b.owner && a.sequence == b.sequence

/-- Scheduler.__init__ (scheduler.py:262-265). -/
structure Sched (β : Type) where
  ident : Nat
  heap : Heap (Ev β)
  counter : Nat

/-- A new Scheduler (scheduler.py:262-265). -/
def Sched.new (ident : Nat) : Sched β := ⟨ident, Heap.new Ev.lt [], 0⟩

/-- Scheduler.schedule's locked body (scheduler.py:284-290), without the wake. `now` is what
`regulator.now()` returns. -/
def Sched.schedule (s : Sched β) (now : Int) (o : β) (time : Int) (absolute : Bool)
    (priority : Int) : Ev β × Sched β :=
  let time := if !absolute then time + now else time
  let counter := s.counter + 1
  let event : Ev β := ⟨s.ident, o, time, priority, counter⟩
  (event, { s with heap := s.heap.append Ev.lt event, counter := counter })

/-- Scheduler.cancel's locked body (scheduler.py:300-302), without the wake. -/
def Sched.cancel (s : Sched β) (e : Ev β) : Except Err (Sched β) :=
  match s.heap.remove Ev.lt Ev.same e with
  | .ok h => .ok { s with heap := h }
  | .error err => .error err

/-- Scheduler.queue (scheduler.py:314-330). -/
def Sched.queue (s : Sched β) : List (Ev β) := s.heap.sortedQueue Ev.lt

/-- Outcome of one pass through the locked region of Scheduler._next. For scheduler.py:341-361. -/
inductive Attempt (β : Type) where
  | stop                             -- raise StopIteration
  | yielded (e : Ev β) (s : Sched β)   -- return ev.event
  | sleep (interval : Int)           -- release the lock, then sleep
  | broken (e : Err)                 -- an exception the code does not expect

/-- One pass through `_next`'s `with self.regulator.lock:` body (scheduler.py:341-361). -/
def Sched.attempt (s : Sched β) (now : Int) : Attempt β :=
  if s.heap.queue.isEmpty then .stop
  else match s.heap.getInt Ev.lt 0 with
    | .error e => .broken e
    | .ok ev =>
      let time_to_next_event := ev.time - now
      if time_to_next_event ≤ 0 then
        match s.heap.popleft Ev.lt with
        | .error e => .broken e
        | .ok (_, h) => .yielded ev { s with heap := h }
      else .sleep time_to_next_event

/-! ### Threads -/

/-- Where a thread is. `looping` means inside a blocking `_next`, about to take the lock
(scheduler.py:340-342); `aboutToSleep d` means the lock was released with the sleep interval `d` in
hand but `event.wait` has not been entered yet (scheduler.py:363-367); `waiting t` means inside
`event.wait`, which times out at `t` (scheduler.py:179-180). -/
inductive Thread where
  | idle | looping | aboutToSleep (d : Int) | waiting (deadline : Int)
  deriving DecidableEq

/-- What has happened so far (ghost state, oldest first). For scheduler.py:219-390. -/
inductive Obs (β : Type) where
  | scheduled (e : Ev β)
  | cancelled (e : Ev β)
  | cancelFailed (e : Ev β)
  | yielded (tid : Nat) (e : Ev β) (now : Int)
  | stopped (tid : Nat) (blocking : Bool) (now : Int)

/-- The whole system: one Scheduler shared by any number of threads. -/
structure Sys (β : Type) where
  sched : Sched β
  clock : Int
  thr : Nat → Thread
  log : List (Obs β)

/-- Scheduling choices of the environment. -/
inductive Label (β : Type) where
  | tick (d : Nat)
  | schedule (tid : Nat) (o : β) (time : Int) (absolute : Bool) (priority : Int)
  | cancel (tid : Nat) (e : Ev β)
  | nonBlocking (tid : Nat)   -- a NonBlockingSchedulerIterator.__next__ call
  | enterNext (tid : Nat)     -- call Scheduler.__next__
  | tryNext (tid : Nat)       -- run the locked region of a blocking _next
  | enterWait (tid : Nat)     -- call event.wait(interval)
  | timeout (tid : Nat)       -- event.wait times out
  | spurious (tid : Nat)      -- sleep returns early (scheduler.py:333-338; also a wait entered
                              -- between the set() and clear() of a concurrent wake)
  | abandon (tid : Nat)       -- a blocking __next__ is ended by an exception that the regulator raises
                              -- (a KeyboardInterrupt in sleep, say)

/-- One thread changes. -/
def setThr (f : Nat → Thread) (t : Nat) (x : Thread) : Nat → Thread :=
  fun u => if u = t then x else f u

/-- ThreadSafeRegulator.wake (scheduler.py:175-177): `event.set()` releases every thread that is
inside `event.wait`; `event.clear()` follows at once, so threads not yet waiting see nothing. -/
def wakeAll (f : Nat → Thread) : Nat → Thread :=
  fun u => match f u with
    | .waiting _ => .looping
    | t => t

/-- One atomic step; `none` if the label is not enabled. -/
def Sys.step (s : Sys β) : Label β → Option (Sys β)
  | .tick d => some { s with clock := s.clock + d }
  | .schedule t o time absolute priority =>
    if s.thr t = .idle then
      let r := s.sched.schedule s.clock o time absolute priority
      some { s with sched := r.2, thr := wakeAll s.thr, log := s.log ++ [.scheduled r.1] }
    else none
  | .cancel t e =>
    if s.thr t = .idle then
      match s.sched.cancel e with
      | .ok sch => some { s with sched := sch, thr := wakeAll s.thr, log := s.log ++ [.cancelled e] }
      | .error _ => some { s with log := s.log ++ [.cancelFailed e] }
    else none
  | .nonBlocking t =>
    if s.thr t = .idle then
      match s.sched.attempt s.clock with
      | .yielded e sch => some { s with sched := sch, log := s.log ++ [.yielded t e s.clock] }
      | .stop => some { s with log := s.log ++ [.stopped t false s.clock] }
      | .sleep _ => some { s with log := s.log ++ [.stopped t false s.clock] }
      | .broken _ => none
    else none
  | .enterNext t =>
    if s.thr t = .idle then some { s with thr := setThr s.thr t .looping } else none
  | .tryNext t =>
    if s.thr t = .looping then
      match s.sched.attempt s.clock with
      | .yielded e sch => some { s with sched := sch, thr := setThr s.thr t .idle,
                                        log := s.log ++ [.yielded t e s.clock] }
      | .stop => some { s with thr := setThr s.thr t .idle,
                               log := s.log ++ [.stopped t true s.clock] }
      | .sleep d => some { s with thr := setThr s.thr t (.aboutToSleep d) }
      | .broken _ => none
    else none
  | .enterWait t => match s.thr t with
    | .aboutToSleep d => some { s with thr := setThr s.thr t (.waiting (s.clock + d)) }
    | _ => none
  | .timeout t => match s.thr t with
    | .waiting dl => if dl ≤ s.clock then some { s with thr := setThr s.thr t .looping } else none
    | _ => none
  | .spurious t => match s.thr t with
    | .waiting _ => some { s with thr := setThr s.thr t .looping }
    | .aboutToSleep _ => some { s with thr := setThr s.thr t .looping }
    | _ => none
  | .abandon t => if s.thr t = .idle then none else some { s with thr := setThr s.thr t .idle }

/-- The events recorded as scheduled, cancelled, yielded, oldest first. -/
def scheduledOf (log : List (Obs β)) : List (Ev β) :=
  log.filterMap fun | .scheduled e => some e | _ => none
@[inherit_doc scheduledOf] def cancelledOf (log : List (Obs β)) : List (Ev β) :=
  log.filterMap fun | .cancelled e => some e | _ => none
@[inherit_doc scheduledOf] def yieldedOf (log : List (Obs β)) : List (Ev β) :=
  log.filterMap fun | .yielded _ e _ => some e | _ => none

/-- Programs can only pass to `cancel` events they hold: ones `schedule` returned, or events of
another scheduler. (An Event cannot be forged, its identity is what is compared.) -/
def Label.Legal (s : Sys β) : Label β → Prop
  | .cancel _ e => e ∈ scheduledOf s.log ∨ e.owner ≠ s.sched.ident
  | _ => True

/-- All threads idle, nothing scheduled. -/
def Sys.init (ident : Nat) (clock : Int) : Sys β :=
  ⟨Sched.new ident, clock, fun _ => .idle, []⟩

/-- States reachable under some interleaving. -/
inductive Sys.Reach (ident : Nat) (clock : Int) : Sys β → Prop
  | init : Sys.Reach ident clock (Sys.init ident clock)
  | step {s s'} (l : Label β) : Sys.Reach ident clock s → l.Legal s → s.step l = some s' →
      Sys.Reach ident clock s'

/-! ### One thread on its own -/

/-- `for e in scheduler.non_blocking()` with the clock fixed at `now` (scheduler.py:340-367): the
events yielded and the scheduler left behind.  `n` bounds the number of iterations and is given as
the queue length, which theorem `drain_stops` shows is enough. -/
def Sched.drainN (s : Sched β) (now : Int) : Nat → List (Ev β) × Sched β
  | 0 => ([], s)
  | n + 1 => match s.attempt now with
    | .yielded e s' => let r := s'.drainN now n; (e :: r.1, r.2)
    | _ => ([], s)

/-- Draining `non_blocking()`. -/
def Sched.drain (s : Sched β) (now : Int) : List (Ev β) × Sched β :=
  s.drainN now s.heap.queue.length

/-- A lone consumer calling the locked region again and again, at the given clock readings,
skipping over sleeps: what it yields and the scheduler left behind. -/
def Sched.consume (s : Sched β) : List Int → List (Ev β) × Sched β
  | [] => ([], s)
  | now :: nows => match s.attempt now with
    | .yielded e s' => let r := s'.consume nows; (e :: r.1, r.2)
    | _ => s.consume nows

end Big.Scheduler
