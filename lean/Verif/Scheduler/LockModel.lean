import Verif.Scheduler.SingleModel
/-!
# The methods of Scheduler, step by step, with any regulator (big/scheduler.py:46-130, 157-180, 267-391)

Model.lean takes each `with self.regulator.lock:` body as one atomic step. Here every reading and writing of the scheduler's
attributes, and every call of the regulator, is a step of its own; the steps of any number of threads interleave in any way, and
any call of the regulator may raise an exception. `lock` and `event` behave as `threading.Lock` and `threading.Event`.
One step each are: a call of a Heap method (only ever made by the thread that holds the lock: C126_exclusive), and computations
without shared state. Times are integers, so comparing and adding them does not raise.
-/
namespace Big.Scheduler.Fine
open Big.Heap
variable {β : Type}

/-- Calls of a Scheduler's methods. -/
inductive Op (β : Type) where
  | schedule (o : β) (time : Int) (absolute : Bool) (priority : Int)
  | cancel (e : Ev β)
  | bool
  | queue
  | next (blocking : Bool)

/-- What a call returns or raises: `failed` is an exception raised by the regulator, `broken` one the code does not expect.
For scheduler.py:363-364. -/
inductive Res (β : Type) where
  | event (e : Ev β)
  | nothing
  | bool (b : Bool)
  | queue (l : List (Ev β))
  | yielded (e : Ev β)
  | stop
  | valueError
  | failed
  | broken

/-- What happens after the `with` body: the call is over, or (with `time_to_next_event`) line 363 comes next.
For scheduler.py:363-367. -/
inductive After (β : Type) where
  | over (r : Res β)
  | notYet (blocking : Bool) (interval : Int)

/-- The point that a thread has reached. -/
inductive Pc (β : Type) where
  | idle
  | enter (op : Op β)                                       -- `with self.regulator.lock:`
  | schedNow (o : β) (time priority : Int)                  -- 285-286: `time += self.regulator.now()`
  | schedRead (o : β) (time priority : Int)                 -- 287: read self.event_id_counter
  | schedWrite (o : β) (time priority : Int) (c : Nat)      -- 287: write it
  | schedMake (o : β) (time priority : Int)                 -- 288: Event(..., self.event_id_counter)
  | schedPush (e : Ev β)                                    -- 289: self.heap.append(event)
  | schedSet (e : Ev β)                                     -- 290: wake, event.set()
  | schedClear (e : Ev β)                                   -- 290: wake, event.clear()
  | cancelRemove (e : Ev β)                                 -- 301: self.heap.remove(event)
  | cancelSet (e : Ev β)                                    -- 302
  | cancelClear (e : Ev β)                                  -- 302
  | readBool                                                -- 312
  | readQueue                                               -- 330
  | nextTest (blocking : Bool)                              -- 343: `if not self.heap`
  | nextNow (blocking : Bool)                               -- 346
  | nextHead (blocking : Bool) (now : Int)                  -- 347-350
  | nextPop (blocking : Bool) (e : Ev β) (now : Int)        -- 351-352
  | exit (obs : Option (Obs β)) (a : After β)               -- the end of the `with`; `obs`: what the body has done (ghost)
  | wantSleep (interval : Int)                              -- 367: `sleep(time_to_next_event)`
  | asleep (deadline : Int)                                 -- inside event.wait

/-- Calls of the regulator. For scheduler.py:219-390. -/
inductive RCall where
  | acquire | release | now | wake | sleep
  deriving DecidableEq, Repr

/-- One Scheduler, its ThreadSafeRegulator and the threads. `log` records what the calls have done, as in Model.lean, in the order in
which they released the lock; `results` what they have returned or raised; `calls` the calls of the regulator (ghost state).
For scheduler.py:219-390. -/
structure State (β : Type) where
  sched : Sched β
  clock : Int
  pc : Nat → Pc β
  lock : Option Nat
  flag : Bool
  log : List (Obs β)
  results : List (Nat × Res β)
  calls : List (Nat × RCall)

/-- One thread goes on to another point. For scheduler.py:219-390. -/
def setPc (f : Nat → Pc β) (t : Nat) (x : Pc β) : Nat → Pc β := fun u => if u = t then x else f u

/-- Threading.Event.set: those inside event.wait return from it, to the top of the loop in `_next` (340). -/
def wakePc (f : Nat → Pc β) : Nat → Pc β := fun u => match f u with
  | .asleep _ => .enter (.next true)
  | p => p

/-- The first line of the `with` body of a method. -/
def Op.first : Op β → Pc β
  | .schedule o time absolute priority => if absolute then .schedRead o time priority else .schedNow o time priority
  | .cancel e => .cancelRemove e
  | .bool => .readBool
  | .queue => .readQueue
  | .next b => .nextTest b

/-- What the thread does after the `with` body (scheduler.py:363-367). -/
def After.pc : After β → Pc β
  | .over _ => .idle
  | .notYet b d => if !b then .idle else .wantSleep d

/-- What the call returns or raises, if it is over (scheduler.py:363-364). -/
def After.res : After β → Option (Res β)
  | .over r => some r
  | .notYet b _ => if !b then some .stop else none

/-- The thread `t` leaves the `with` body. -/
def State.leave (s : State β) (t : Nat) (obs : Option (Obs β)) (a : After β) : State β :=
  { s with lock := none, calls := s.calls ++ [(t, .release)], log := s.log ++ obs.toList,
           pc := setPc s.pc t a.pc, results := s.results ++ a.res.toList.map (fun r => (t, r)) }

/-- The next step of thread `t`; `none` if it cannot take one: it is idle, waits for the lock, or sleeps. -/
def State.go (s : State β) (t : Nat) : Option (State β) :=
  match s.pc t with
  | .idle => none
  | .enter op =>
    if s.lock.isNone then
      some { s with lock := some t, calls := s.calls ++ [(t, .acquire)], pc := setPc s.pc t op.first }
    else none
  | .schedNow o time priority =>
    some { s with calls := s.calls ++ [(t, .now)], pc := setPc s.pc t (.schedRead o (time + s.clock) priority) }
  | .schedRead o time priority => some { s with pc := setPc s.pc t (.schedWrite o time priority s.sched.counter) }
  | .schedWrite o time priority c =>
    some { s with sched := { s.sched with counter := c + 1 }, pc := setPc s.pc t (.schedMake o time priority) }
  | .schedMake o time priority =>
    some { s with pc := setPc s.pc t (.schedPush ⟨s.sched.ident, o, time, priority, s.sched.counter⟩) }
  | .schedPush e =>
    some { s with sched := { s.sched with heap := s.sched.heap.append Ev.lt e }, pc := setPc s.pc t (.schedSet e) }
  | .schedSet e =>
    some { s with flag := true, calls := s.calls ++ [(t, .wake)], pc := setPc (wakePc s.pc) t (.schedClear e) }
  | .schedClear e => some { s with flag := false, pc := setPc s.pc t (.exit (some (.scheduled e)) (.over (.event e))) }
  | .cancelRemove e =>
    match s.sched.cancel e with
    | .ok sch => some { s with sched := sch, pc := setPc s.pc t (.cancelSet e) }
    | .error _ => some { s with pc := setPc s.pc t (.exit (some (.cancelFailed e)) (.over .valueError)) }
  | .cancelSet e =>
    some { s with flag := true, calls := s.calls ++ [(t, .wake)], pc := setPc (wakePc s.pc) t (.cancelClear e) }
  | .cancelClear e => some { s with flag := false, pc := setPc s.pc t (.exit (some (.cancelled e)) (.over .nothing)) }
  | .readBool => some { s with pc := setPc s.pc t (.exit none (.over (.bool s.sched.bool))) }
  | .readQueue => some { s with pc := setPc s.pc t (.exit none (.over (.queue s.sched.queue))) }
  | .nextTest b =>
    if s.sched.heap.queue.isEmpty then some { s with pc := setPc s.pc t (.exit (some (.stopped t b s.clock)) (.over .stop)) }
    else some { s with pc := setPc s.pc t (.nextNow b) }
  | .nextNow b => some { s with calls := s.calls ++ [(t, .now)], pc := setPc s.pc t (.nextHead b s.clock) }
  | .nextHead b now =>
    match s.sched.heap.getInt Ev.lt 0 with
    | .error _ => some { s with pc := setPc s.pc t (.exit none (.over .broken)) }
    | .ok ev =>
      if ev.time - now ≤ 0 then some { s with pc := setPc s.pc t (.nextPop b ev now) }
      else some { s with pc := setPc s.pc t (.exit (if b then none else some (.stopped t false now)) (.notYet b (ev.time - now))) }
  | .nextPop _ ev now =>
    match s.sched.heap.popleft Ev.lt with
    | .error _ => some { s with pc := setPc s.pc t (.exit none (.over .broken)) }
    | .ok (_, h) => some { s with sched := { s.sched with heap := h },
                                  pc := setPc s.pc t (.exit (some (.yielded t ev now)) (.over (.yielded ev))) }
  | .exit obs a => some (s.leave t obs a)
  | .wantSleep d =>
    some { s with calls := s.calls ++ [(t, .sleep)],
                  pc := setPc s.pc t (if s.flag then .enter (.next true) else .asleep (s.clock + d)) }
  | .asleep _ => none

/-- The call of the regulator that thread `t` is making raises an exception; `none` if it is making none. Inside a `with` body, the
lock is released on the way out. For scheduler.py:219-390. -/
def State.fail (s : State β) (t : Nat) : Option (State β) :=
  let out : State β := { s with pc := setPc s.pc t .idle, results := s.results ++ [(t, .failed)] }
  match s.pc t with
  | .enter _ => some out
  | .wantSleep _ => some out
  | .asleep _ => some out
  | .schedNow .. => some { s with pc := setPc s.pc t (.exit none (.over .failed)) }
  | .nextNow .. => some { s with pc := setPc s.pc t (.exit none (.over .failed)) }
  | .schedSet e => some { s with pc := setPc s.pc t (.exit (some (.scheduled e)) (.over .failed)) }
  | .schedClear e => some { s with pc := setPc s.pc t (.exit (some (.scheduled e)) (.over .failed)) }
  | .cancelSet e => some { s with pc := setPc s.pc t (.exit (some (.cancelled e)) (.over .failed)) }
  | .cancelClear e => some { s with pc := setPc s.pc t (.exit (some (.cancelled e)) (.over .failed)) }
  | _ => none

/-- Choices of the environment. For scheduler.py:219-390. -/
inductive Choice (β : Type) where
  | tick (d : Nat)
  | call (t : Nat) (op : Op β)
  | go (t : Nat)
  | fail (t : Nat)
  | awake (t : Nat)      -- event.wait times out, or returns early

/-- What may happen next: time passes, a thread that is idle calls a method, or a thread makes its next step (scheduler.py:219-390). -/
def State.step (s : State β) : Choice β → Option (State β)
  | .tick d => some { s with clock := s.clock + d }
  | .call t op => match s.pc t with
    | .idle => some { s with pc := setPc s.pc t (.enter op) }
    | _ => none
  | .go t => s.go t
  | .fail t => s.fail t
  | .awake t => match s.pc t with
    | .asleep _ => some { s with pc := setPc s.pc t (.enter (.next true)) }
    | _ => none

/-- Programs pass to `cancel` only events they can hold (Label.Legal in Model.lean). -/
def Choice.Legal (s : State β) : Choice β → Prop
  | .call _ (.cancel e) => e ∈ scheduledOf s.log ∨ e.owner ≠ s.sched.ident
  | _ => True

/-- A new scheduler (scheduler.py:262-266), before any call. -/
def State.init (ident : Nat) (clock : Int) : State β := ⟨Sched.new ident, clock, fun _ => .idle, none, false, [], [], []⟩

/-- States reachable under some interleaving. -/
inductive Reach (ident : Nat) (clock : Int) : State β → Prop
  | init : Reach ident clock (State.init ident clock)
  | step {s s'} (c : Choice β) : Reach ident clock s → c.Legal s → s.step c = some s' → Reach ident clock s'

end Big.Scheduler.Fine
