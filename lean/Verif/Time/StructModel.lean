import Verif.Time.Model
/-!
# struct_time arguments of timestamp_3339Z and timestamp_human (big/time.py:76-82, 140-145)

The conversion to seconds that `Arg.structTime` leaves out. `calendar.timegm` (CPython, calendar.py) is modelled;
the C library's `mktime` is any function of the fields and `tm_isdst`. Simplified: the fields are natural numbers.
-/
namespace Big.Time

/-- A `time.struct_time`: its fields (a struct_time has no microseconds: `micro` is 0), `tm_isdst`, `tm_zone` and
`tm_gmtoff` (seconds). -/
structure ST where
  fields : DT
  isdst : Int
  zone : Option String
  gmtoff : Option Int
  deriving DecidableEq, Repr

/-- `calendar.timegm(t)`: ValueError if the year or month is out of range. For time.py:77-80, 141-144. -/
def timegm (t : DT) : Except Err Int :=
  if 1 ≤ t.year ∧ t.year ≤ 9999 ∧ 1 ≤ t.month ∧ t.month ≤ 12 then
    .ok (((((dayNumber t.year t.month 1 : Int) - 719162 + t.day - 1) * 24 + t.hour) * 60 + t.minute) * 60 + t.second)
  else .error .rangeError

/-- `timegm(t) if t.tm_zone == "GMT" else mktime(t)` (time.py:77-80, 141-144). -/
def ST.seconds (mktime : DT → Int → Except Err Int) (s : ST) : Except Err Int :=
  if s.zone = some "GMT" then timegm s.fields else mktime s.fields s.isdst

/-- The argument that the rest of the function sees. For time.py:110-169. -/
def ST.arg (mktime : DT → Int → Except Err Int) (s : ST) : Except Err Arg :=
  (s.seconds mktime).map (.structTime (s.zone = some "GMT"))

/-- `timestamp_3339Z(s, want_microseconds)` for a struct_time (time.py:110-169). -/
def structStamp (env : Env) (mktime : DT → Int → Except Err Int) (s : ST) (want : Option Bool) : Except Err (List Char) :=
  match s.arg mktime with
  | .error e => .error e
  | .ok a => timestamp3339Z env a want

/-- `timestamp_human(s, want_microseconds)` for a struct_time (time.py:48-103). -/
def structHuman (env : Env) (mktime : DT → Int → Except Err Int) (s : ST) (want : Option Bool) : Except Err (List Char) :=
  match s.arg mktime with
  | .error e => .error e
  | .ok a => timestampHuman env a want

/-! ## Specification -/

/-- A struct_time that says, in `tm_gmtoff`, how far from UTC it is stands for the instant `i` (seconds from the
epoch) if its fields are those of the datetime `tm_gmtoff` seconds later than `i`. -/
def ST.Denotes (s : ST) (i : Int) : Prop :=
  ∃ off, s.gmtoff = some off ∧ s.fields.Valid ∧ s.fields.year ≤ 9999 ∧ s.fields.micro = 0 ∧
    (s.fields.micros : Int) = epoch + (i + off) * 1000000

end Big.Time
