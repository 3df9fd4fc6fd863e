/-!
# timestamp_3339Z and timestamp_human (big/time.py:46-201)

`datetime` itself (CPython) is modelled by the proleptic Gregorian calendar: a datetime is seven fields, an
instant is a number of microseconds. Not modelled: NaN and infinite floats, the rounding of a float to
microseconds (a float is given as the number of microseconds it is rounded to), and `fold`. A struct_time is given
as the seconds that timegm or mktime convert it to: for this conversion see StructModel. `%Y` is not padded, as on
Linux.
-/
namespace Big.Time

/-! ### The calendar -/

/-- A `datetime.datetime`, without its time zone. -/
structure DT where
  year : Nat
  month : Nat
  day : Nat
  hour : Nat
  minute : Nat
  second : Nat
  micro : Nat
  deriving DecidableEq, Repr

/-- Leap years. For time.py:76-82, 140-145. -/
def isLeap (y : Nat) : Bool := y % 4 == 0 && (y % 100 != 0 || y % 400 == 0)

/-- The number of days of a month. For time.py:76-82, 140-145. -/
def daysIn (y m : Nat) : Nat :=
  if m = 2 then (if isLeap y then 29 else 28)
  else if m = 4 ∨ m = 6 ∨ m = 9 ∨ m = 11 then 30
  else 31

/-- The day after. For time.py:110-169. -/
def nextDay : Nat × Nat × Nat → Nat × Nat × Nat
  | (y, m, d) => if d < daysIn y m then (y, m, d + 1) else if m < 12 then (y, m + 1, 1) else (y + 1, 1, 1)

/-- The date `n` days after January 1 of year 1. For time.py:110-169. -/
def dateOf : Nat → Nat × Nat × Nat
  | 0 => (1, 1, 1)
  | n + 1 => nextDay (dateOf n)

/-- Microseconds per day. For time.py:110-169. -/
def perDay : Nat := 24 * 60 * 60 * 1000000

/-- The datetime `n` microseconds after the start of year 1. For time.py:110-169. -/
def ofMicros (n : Nat) : DT :=
  let d := dateOf (n / perDay)
  let r := n % perDay
  { year := d.1, month := d.2.1, day := d.2.2, hour := r / 3600000000, minute := r / 60000000 % 60,
    second := r / 1000000 % 60, micro := r % 1000000 }

/-- The days from the start of year 1 to the start of year `y`. For time.py:76-82, 140-145. -/
def daysBeforeYear (y : Nat) : Nat := (y - 1) * 365 + (y - 1) / 4 - (y - 1) / 100 + (y - 1) / 400

/-- The days from the start of the year to the start of month `m`. For time.py:76-82, 140-145. -/
def daysBeforeMonth (y : Nat) : Nat → Nat
  | 0 => 0
  | m + 1 => if m = 0 then 0 else daysBeforeMonth y m + daysIn y m

/-- The days from January 1 of year 1. For time.py:76-82, 140-145. -/
def dayNumber (y m d : Nat) : Nat := daysBeforeYear y + daysBeforeMonth y m + (d - 1)

/-- The microseconds from the start of year 1. For time.py:106-108. -/
def DT.micros (t : DT) : Nat :=
  (((dayNumber t.year t.month t.day * 24 + t.hour) * 60 + t.minute) * 60 + t.second) * 1000000 + t.micro

/-- The epoch, 1970-01-01, in microseconds from the start of year 1. For time.py:110-169. -/
def epoch : Int := 719162 * 86400 * 1000000

/-- A valid datetime. -/
structure DT.Valid (t : DT) : Prop where
  year : 1 ≤ t.year
  month : 1 ≤ t.month ∧ t.month ≤ 12
  day : 1 ≤ t.day ∧ t.day ≤ daysIn t.year t.month
  hour : t.hour < 24
  minute : t.minute < 60
  second : t.second < 60
  micro : t.micro < 1000000

/-! ### The arguments -/

/-- The exceptions. For time.py. -/
inductive Err where
  | typeError | rangeError
  deriving DecidableEq, Repr

instance {α : Type} [DecidableEq α] : DecidableEq (Except Err α)
  | .ok a, .ok b => if h : a = b then .isTrue (by rw [h]) else .isFalse (by simp [h])
  | .error a, .error b => if h : a = b then .isTrue (by rw [h]) else .isFalse (by simp [h])
  | .ok _, .error _ => .isFalse (by simp)
  | .error _, .ok _ => .isFalse (by simp)

/-- The types of `t`. A time zone is given by its offset from UTC, in microseconds; None for a naive datetime.
For time.py:76-82, 140-145. -/
inductive Arg where
  | pyNone
  | int (seconds : Int)
  | float (micros : Int)
  | structTime (gmt : Bool) (seconds : Int)
  | datetime (t : DT) (tz : Option Int)
  | other

/-- The world: the current time in microseconds from the epoch, the offset of local time at an instant, and the
offset that a naive datetime is taken to have. For time.py:110-169. -/
structure Env where
  now : Int
  localAt : Int → Int
  localOf : DT → Int

/-- The datetime at an instant, given in microseconds from the epoch, plus an offset: an exception outside of
the years 1 to 9999. For time.py:110-169. -/
def atOffset (micros offset : Int) : Except Err DT :=
  let n := epoch + micros + offset
  if n < 0 then .error .rangeError
  else
    let d := ofMicros n.toNat
    if d.year > 9999 then .error .rangeError else .ok d

/-- `isinstance(t, float)`. For time.py:110-169. -/
def Arg.isFloat : Arg → Bool
  | .float _ => true
  | _ => false

/-! ### strftime -/

/-- One digit. For time.py:106-108. -/
def digit (n : Nat) : Char := Char.ofNat (48 + n % 10)

/-- A number with `w` digits. For time.py:106-108. -/
def pad : Nat → Nat → List Char
  | 0, _ => []
  | w + 1, n => pad w (n / 10) ++ [digit n]

/-- A number without padding. The first argument bounds the number of digits. For time.py:106-108. -/
def decimal : Nat → Nat → List Char
  | 0, _ => []
  | f + 1, n => if n < 10 then [digit n] else decimal f (n / 10) ++ [digit n]

/-- `%Y`. For time.py:106-108. -/
def yearText (y : Nat) : List Char := decimal (y + 1) y

/-- `_timestamp_3339Z_format_base`, `_timestamp_3339Z_format`, `_timestamp_3339Z_microseconds_format`
(time.py:106-108). -/
def strftime3339 (t : DT) (micros : Bool) : List Char :=
  yearText t.year ++ '-' :: pad 2 t.month ++ '-' :: pad 2 t.day ++ 'T' :: pad 2 t.hour ++ ':' :: pad 2 t.minute ++
    ':' :: pad 2 t.second ++ (if micros then '.' :: pad 6 t.micro else []) ++ ['Z']

/-- `t.strftime(_timestamp_human_format)` and the microseconds (time.py:46, 100-102). -/
def strftimeHuman (t : DT) (micros : Bool) : List Char :=
  yearText t.year ++ '/' :: pad 2 t.month ++ '/' :: pad 2 t.day ++ ' ' :: pad 2 t.hour ++ ':' :: pad 2 t.minute ++
    ':' :: pad 2 t.second ++ (if micros then '.' :: pad 6 t.micro else [])

/-! ### The functions -/

/-- The struct_time is replaced by a number (time.py:76-82, 140-145): timegm returns an int and mktime a float. -/
def unstruct (t : Arg) (want : Option Bool) : Arg × Option Bool :=
  match t with
  | .structTime gmt secs => (if gmt then .int secs else .float (secs * 1000000), some (want.getD false))
  | t => (t, want)

/-- `timestamp_3339Z(t, want_microseconds)` (time.py:110-169). Lines 150-152 look at `t` after it has been
replaced by a datetime. -/
def timestamp3339Z (env : Env) (t0 : Arg) (want0 : Option Bool) : Except Err (List Char) :=
  let (t, want) := unstruct t0 want0
  let r : Except Err (DT × Option Bool) :=
    match t with
    | .pyNone => (atOffset env.now 0).map (fun d => (d, want))
    | .int n => (atOffset (n * 1000000) 0).map (fun d => (d, some (want.getD (Arg.datetime d (some 0)).isFloat)))
    | .float n => (atOffset n 0).map (fun d => (d, some (want.getD (Arg.datetime d (some 0)).isFloat)))
    | .datetime d tz =>
      if tz = some 0 then .ok (d, want)
      else (atOffset (d.micros - epoch - tz.getD (env.localOf d)) 0).map (fun d => (d, want))
    | .structTime _ _ => .error .typeError
    | .other => .error .typeError
  r.map (fun (d, want) => strftime3339 d (want.getD true))

/-- `timestamp_human(t, want_microseconds)` (time.py:48-103). -/
def timestampHuman (env : Env) (t0 : Arg) (want0 : Option Bool) : Except Err (List Char) :=
  let (t, want) := unstruct t0 want0
  let r : Except Err (DT × Option Bool) :=
    match t with
    | .pyNone => (atOffset env.now (env.localAt env.now)).map (fun d => (d, want))
    | .int n => (atOffset (n * 1000000) (env.localAt (n * 1000000))).map (fun d => (d, some (want.getD (Arg.int n).isFloat)))
    | .float n => (atOffset n (env.localAt n)).map (fun d => (d, some (want.getD (Arg.float n).isFloat)))
    | .datetime d tz =>
      match tz with
      | none => .ok (d, want)
      | some off =>
        let i := d.micros - epoch - off
        (atOffset i (env.localAt i)).map (fun d => (d, want))
    | .structTime _ _ => .error .typeError
    | .other => .error .typeError
  r.map (fun (d, want) => strftimeHuman d (want.getD true))

/-! ### datetime_set_timezone, datetime_ensure_timezone (time.py:172-206) -/

/-- `datetime_set_timezone(d, timezone)`: every field is copied. -/
def setTimezone (t : DT × Option Int) (tz : Int) : DT × Option Int :=
  ({ year := t.1.year, month := t.1.month, day := t.1.day, hour := t.1.hour, minute := t.1.minute,
     second := t.1.second, micro := t.1.micro }, some tz)

/-- `datetime_ensure_timezone(d, timezone)`. -/
def ensureTimezone (t : DT × Option Int) (tz : Int) : DT × Option Int :=
  match t.2 with
  | some _ => t
  | none => setTimezone t tz

/-! ## Specification -/

/-- The instant that an argument stands for, in microseconds from the epoch. -/
def Arg.instant (env : Env) : Arg → Option Int
  | .pyNone => some env.now
  | .int n => some (n * 1000000)
  | .float n => some n
  | .structTime _ n => some (n * 1000000)
  | .datetime d (some off) => some (d.micros - epoch - off)
  | .datetime d none => some (d.micros - epoch - env.localOf d)
  | .other => none

/-- Whether microseconds are shown by default, according to the docstring: "if t is a type that can represent
fractional seconds: a float, a datetime object, or the value None". -/
def Arg.fractional : Arg → Bool
  | .pyNone => true
  | .int _ => false
  | .float _ => true
  | .structTime _ _ => false
  | .datetime _ _ => true
  | .other => false

/-- The number that a digit stands for. -/
def digitVal (c : Char) : Nat := c.toNat - 48

/-- Read a decimal number. -/
def readNat (l : List Char) : Nat := l.foldl (fun n c => n * 10 + digitVal c) 0

/-- Read a timestamp by position, as RFC 3339 has it: `YYYY-MM-DDTHH:MM:SS[.ffffff]Z`. -/
def readStamp (l : List Char) : DT :=
  { year := readNat (l.take 4), month := readNat ((l.drop 5).take 2), day := readNat ((l.drop 8).take 2),
    hour := readNat ((l.drop 11).take 2), minute := readNat ((l.drop 14).take 2), second := readNat ((l.drop 17).take 2),
    micro := if (l.drop 19).take 1 = ['.'] then readNat ((l.drop 20).take 6) else 0 }

/-- An instant with the precision of the timestamp. -/
def roundTo (micros : Bool) (t : Int) : Int := if micros then t else t / 1000000 * 1000000

end Big.Time
