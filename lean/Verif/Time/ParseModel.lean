import Verif.Time.Model
/-!
# Model of `datetime_set_timezone`, `datetime_ensure_timezone` and `parse_timestamp_3339Z` (big/time.py:172-223)

A tzinfo object is any value of a type `τ`; `fold` is kept. `dateutil.parser.parse` is a parameter.
-/
namespace Big.Time

/-- A datetime.datetime object. For time.py:172-206. -/
structure PyDate (τ : Type) where
  fields : DT
  tzinfo : Option τ
  fold : Bool
  deriving DecidableEq

variable {τ : Type}

/-- `datetime_set_timezone(d, timezone)` (time.py:172-188). -/
def setTz (d : PyDate τ) (timezone : Option τ) : PyDate τ where
  fields := { year := d.fields.year, month := d.fields.month, day := d.fields.day, hour := d.fields.hour,
              minute := d.fields.minute, second := d.fields.second, micro := d.fields.micro }
  tzinfo := timezone
  fold := d.fold

/-- `datetime_ensure_timezone(d, timezone)` (time.py:190-203). A tzinfo object is taken to be true. -/
def ensureTz (d : PyDate τ) (timezone : Option τ) : PyDate τ :=
  if d.tzinfo.isSome then d else setTz d timezone

/-- `parse_timestamp_3339Z(s, timezone=timezone)` (time.py:205-223). A datetime is true. -/
def parse3339Z (dateutil : List Char → Except Err (PyDate τ)) (s : List Char) (timezone : Option τ := none) :
    Except Err (PyDate τ) :=
  match dateutil s with
  | .error e => .error e
  | .ok d => .ok (ensureTz d timezone)

end Big.Time
