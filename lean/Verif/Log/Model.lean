/-!
# Model of `Log` (big/log.py)

The clock is any function: each operation that reads it is given the value it returns.
-/
namespace Big.Log

/-- Attributes of a Log (log.py:98-103). The head of `stack` is its top. -/
structure St where
  start : Int
  stack : List String
  events : List (Int × String × Nat)
  longest : Nat

/-- reset (log.py:90-103), t being what the clock returns. -/
def reset (t : Int) : St := ⟨t, [], [(0, "log start", 0)], "log start".length⟩

/-- `log(event)` (log.py:127-134) -/
def call (event : String) (t : Int) (l : St) : St :=
  ⟨l.start, l.stack, l.events ++ [(t - l.start, event, l.stack.length)], max l.longest event.length⟩

/-- enter (log.py:105-118) -/
def enter (subsystem : String) (t : Int) (l : St) : St :=
  let l := call (subsystem ++ " start") t l
  { l with stack := subsystem :: l.stack }

/-- exit (log.py:120-125): none if `pop` raises IndexError, and then nothing has changed. -/
def exit (t : Int) (l : St) : Option St :=
  match l.stack with
  | [] => none
  | s :: stack => some (call (s ++ " end") t { l with stack := stack })

/-- The loop of `__iter__` (log.py:148-155). -/
def iterFrom : Int × String × Nat → List (Int × String × Nat) → List (Int × Int × String × Nat)
  | (t, e, d), [] => [(t, 0, e, d)]
  | (t, e, d), x :: l => (t, x.1 - t, e, d) :: iterFrom x l

/-- `__iter__` (log.py:136-155); `events` is never empty. -/
def iter (l : St) : List (Int × Int × String × Nat) :=
  match l.events with
  | [] => []
  | x :: l => iterFrom x l

/-- What a user does. -/
inductive Op where
  | log (event : String) | enter (subsystem : String) | exit | reset
  deriving DecidableEq, Repr

/-- One operation, with the value the clock has at that time. An exit that raises is caught. For log.py:90-149. -/
def step (l : St) : Op × Int → St
  | (.log e, t) => call e t l
  | (.enter s, t) => enter s t l
  | (.exit, t) => (exit t l).getD l
  | (.reset, t) => reset t

/-- Log(clock) and then the operations of a history. For log.py:90-149. -/
def run (t₀ : Int) (h : List (Op × Int)) : St := h.foldl step (reset t₀)

/-- str() of a non-negative int. For log.py:179-184. -/
def natStr (n : Nat) : List Char := Nat.toDigits 10 n

/-- Pad on the left with zeros, as `:0w` does for a non-negative number, and `:>09`. For log.py:179-184. -/
def zeroPad (w : Nat) (s : List Char) : List Char := List.replicate (w - s.length) '0' ++ s

/-- format_time (log.py:179-184). Times are not negative with a monotone clock. The code subtracts
`seconds`, not `seconds * 10**9`, from t. -/
def formatTime (secondsWidth fractionalWidth t : Nat) : List Char :=
  let seconds := t / 1000000000
  let nanoseconds := (zeroPad 9 (natStr (t - seconds))).take fractionalWidth
  zeroPad secondsWidth (natStr seconds) ++ '.' :: nanoseconds

end Big.Log
