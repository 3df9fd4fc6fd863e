import Verif.Scheduler.Model
/-!
# A Scheduler in a program with one thread (big/scheduler.py:133-154, 304-312, 332-391)

`now` is what `regulator.now()` gives; `sleep c d` is what it gives after `regulator.sleep(d)` called
when it was `c`. With one thread, nothing else happens while sleeping.
-/
namespace Big.Scheduler
open Big.Heap
variable {β : Type}

/-- Scheduler.__bool__ (scheduler.py:304-312). -/
def Sched.bool (s : Sched β) : Bool := !s.heap.queue.isEmpty

/-- Event.cancel (scheduler.py:219-220): `e.scheduler` is the scheduler that made it. -/
def Ev.cancel (e : Ev β) (s : Sched β) : Except Err (Sched β) := s.cancel e

/-- `next(scheduler)`: _next(blocking=True) (scheduler.py:332-367, 372-373): the `while True` loop, at
most `n` turns of it. `some (none, ...)` stands for StopIteration; the last component is the clock. -/
def Sched.nextBlocking (sleep : Int → Int → Int) : Nat → Sched β → Int →
    Option (Option (Ev β) × Sched β × Int)
  | 0, _, _ => none
  | n + 1, s, now => match s.attempt now with
    | .stop => some (none, s, now)
    | .yielded e s' => some (some e, s', now)
    | .sleep d => s.nextBlocking sleep n (sleep now d)
    | .broken _ => none

/-- `next(scheduler.non_blocking())` (scheduler.py:332-367, 383-384). -/
def Sched.nextNonBlocking (s : Sched β) (now : Int) : Option (Option (Ev β) × Sched β) :=
  match s.attempt now with
  | .stop => some (none, s)
  | .yielded e s' => some (some e, s')
  | .sleep _ => some (none, s)
  | .broken _ => none

/-- `for e in scheduler: work(e)` (scheduler.py:369-373), where the body does not touch the scheduler
and takes the time `work e`: each event with the time it is yielded at, and the clock at the end. At
most `m` iterations of at most `n` turns each. -/
def Sched.forLoop (sleep : Int → Int → Int) (work : Ev β → Nat) (n : Nat) : Nat → Sched β → Int →
    Option (List (Ev β × Int) × Sched β × Int)
  | 0, _, _ => none
  | m + 1, s, now => match s.nextBlocking sleep n now with
    | none => none
    | some (none, s', t) => some ([], s', t)
    | some (some e, s', t) =>
      match s'.forLoop sleep work n m (t + work e) with
      | none => none
      | some (l, r) => some ((e, t) :: l, r)

end Big.Scheduler
