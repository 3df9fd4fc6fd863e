import Verif.Time.ParseModel
import Verif.Time.Props
/-!
# C141: parse_timestamp_3339Z reads what timestamp_3339Z writes
-/
namespace Big.Time
variable {τ : Type}

/-- A text of the form that RFC 3339 gives to UTC times, with microseconds or without. -/
def Rfc3339Z (u : List Char) : Prop :=
  let form := u.map (fun c => if c.isDigit then '0' else c)
  form = "0000-00-00T00:00:00.000000Z".toList ∨ form = "0000-00-00T00:00:00Z".toList

/-- What is assumed of `dateutil.parser.parse`: it reads RFC 3339 times that exist, and gives them the time zone `utc`. -/
def ReadsUtc (utc : τ) (dateutil : List Char → Except Err (PyDate τ)) : Prop :=
  ∀ u, Rfc3339Z u → (readStamp u).Valid → dateutil u = .ok ⟨readStamp u, some utc, false⟩

/-- **C141**: whatever timestamp_3339Z returns, from the year 1000 on, parse_timestamp_3339Z takes: the datetime is in UTC,
whatever the default timezone given, and is the instant, up to the precision of the timestamp; the timestamp of that datetime
is the same text again. -/
theorem C141_round_trip {utc : τ} {dateutil : List Char → Except Err (PyDate τ)} (hd : ReadsUtc utc dateutil)
    (env : Env) (x : Arg) (hx : x.Valid) (i : Int) (hi : x.instant env = some i) (hi0 : year1000 ≤ i) (b : Bool)
    (u : List Char) (hu : timestamp3339Z env x (some b) = .ok u) :
    ∃ d : PyDate τ, (∀ timezone, parse3339Z dateutil u timezone = .ok d) ∧ d.tzinfo = some utc ∧
      Arg.instant env (.datetime d.fields (some 0)) = some (roundTo b i) ∧
      timestamp3339Z env (.datetime d.fields (some 0)) (some b) = .ok u := by
  obtain ⟨hv, hm⟩ := C58_reads env x hx i hi hi0 b u hu
  have hf := C58_format env x hx i hi hi0 b u hu
  have hform : Rfc3339Z u := by
    unfold Rfc3339Z
    dsimp only
    rw [hf]
    cases b
    · exact .inr rfl
    · exact .inl rfl
  refine ⟨⟨readStamp u, some utc, false⟩, ?_, rfl, ?_, ?_⟩
  · intro timezone
    unfold parse3339Z
    rw [hd u hform hv]
    rfl
  · show some (((readStamp u).micros : Int) - epoch - 0) = _
    rw [Int.sub_zero, hm]
  · show Except.ok (strftime3339 (readStamp u) b) = _
    rw [C58_utc env x hx i hi b] at hu
    cases h1 : atOffset i 0 with
    | error e => rw [h1] at hu; cases hu
    | ok c =>
      rw [h1] at hu
      have hu' : strftime3339 c b = u := by injection hu
      have he : epoch = 62135596800000000 := by decide
      obtain ⟨c1, c2, c3⟩ := atOffset_ok h1
      have bc := (year_bounds c1).1
      unfold year1000 at hi0
      rw [← hu', readStamp_eq c1 (bc.2 (by omega)) c2 b]
      cases b <;> rfl

/-- **C141**: a text that gives no time zone gets the default one, and none if there is none; a text that gives one keeps it;
all the fields are what dateutil read. What dateutil raises is raised, and nothing else. -/
theorem C141_default_timezone (dateutil : List Char → Except Err (PyDate τ)) (s : List Char) (timezone : Option τ) :
    (∀ d, dateutil s = .ok d → ∃ r, parse3339Z dateutil s timezone = .ok r ∧ r.fields = d.fields ∧ r.fold = d.fold ∧
      (∀ z, d.tzinfo = some z → r.tzinfo = some z) ∧ (d.tzinfo = none → r.tzinfo = timezone)) ∧
    (∀ e, parse3339Z dateutil s timezone = .error e ↔ dateutil s = .error e) := by
  unfold parse3339Z
  cases h : dateutil s with
  | error e => exact ⟨(by intro d h; cases h), (by intro e'; exact Iff.rfl)⟩
  | ok d =>
    refine ⟨?_, (by intro e; constructor <;> (intro h; cases h))⟩
    intro d' hd
    cases hd
    refine ⟨_, rfl, ?_⟩
    obtain ⟨f, z, fold⟩ := d
    cases z <;> simp [ensureTz, setTz]

/-- **C141**: datetime_set_timezone changes nothing but the time zone (fold too is kept), and the one set last counts;
datetime_ensure_timezone changes nothing if there is a time zone, else sets it, and doing it again changes nothing. -/
theorem C141_set_and_ensure (d : PyDate τ) (z z' : Option τ) :
    setTz d z = { d with tzinfo := z } ∧ setTz (setTz d z') z = setTz d z ∧
    (d.tzinfo ≠ none → ensureTz d z = d) ∧ (d.tzinfo = none → ensureTz d z = { d with tzinfo := z }) ∧
    ensureTz (ensureTz d z) z = ensureTz d z ∧ (z ≠ none → ensureTz (ensureTz d z) z' = ensureTz d z ∧
      (ensureTz d z).tzinfo ≠ none) := by
  obtain ⟨f, t, fold⟩ := d
  cases t <;> cases z <;> simp [ensureTz, setTz]

/-- The hypotheses are met: a parser, and a timestamp of a datetime in another time zone. -/
example (env : Env) : ∃ dateutil : List Char → Except Err (PyDate Nat), ReadsUtc 0 dateutil ∧
    (Arg.datetime ⟨2021, 5, 24, 23, 46, 35, 425327⟩ (some 0)).Valid ∧
    timestamp3339Z env (.datetime ⟨2021, 5, 24, 23, 46, 35, 425327⟩ (some 0)) (some true) =
      .ok "2021-05-24T23:46:35.425327Z".toList ∧
    parse3339Z dateutil "2021-05-24T23:46:35.425327Z".toList (some 7) =
      .ok ⟨⟨2021, 5, 24, 23, 46, 35, 425327⟩, some 0, false⟩ := by
  refine ⟨fun u => .ok ⟨readStamp u, some 0, false⟩, fun u _ _ => rfl, ⟨⟨by decide, by decide, by decide, by decide, by decide,
    by decide, by decide⟩, by decide⟩, ?_, ?_⟩
  · show Except.ok (strftime3339 ⟨2021, 5, 24, 23, 46, 35, 425327⟩ true) = _
    exact congrArg Except.ok (by decide +kernel)
  · exact congrArg Except.ok (by decide +kernel)

end Big.Time
