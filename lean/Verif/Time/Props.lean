import Verif.Time.Stamp
/-! # C58: timestamps -/
namespace Big.Time

/-- An argument as Python has it: the fields of a datetime are valid. -/
def Arg.Valid : Arg → Prop
  | .datetime d _ => d.Valid ∧ d.year ≤ 9999
  | _ => True

/-- The first instant of the year 1000, and the end of the year 9999, in microseconds from the epoch. -/
def year1000 : Int := -30610224000 * 1000000
/-- The first instant of year 10000. -/
def year10000 : Int := 253402300800 * 1000000
/-- The first instant of year 1. -/
def year1 : Int := -62135596800 * 1000000

/-! ### Lemmas -/

theorem year_bounds {t : DT} (ht : t.Valid) : (1000 ≤ t.year ↔ 364877 * 86400 * 1000000 ≤ t.micros) ∧
    (t.year ≤ 9999 ↔ t.micros < 3652059 * 86400 * 1000000) := by
  have hm := daysBeforeMonth_mono t.year ht.month.1 (show t.month < 13 by have := ht.month; omega)
  have hd := ht.day
  have key : ∀ y, 1 ≤ y → (t.year < y → t.micros < daysBeforeYear y * 86400 * 1000000) ∧
      (y ≤ t.year → daysBeforeYear y * 86400 * 1000000 ≤ t.micros) := by
    intro y hy
    have h1 := ht.hour
    have h2 := ht.minute
    have h3 := ht.second
    have h4 := ht.micro
    unfold DT.micros dayNumber
    constructor
    · intro h
      have := daysBeforeYear_mono ht.year h
      omega
    · intro h
      by_cases hyy : y = t.year
      · subst hyy; omega
      · have := daysBeforeYear_mono hy (show y < t.year by omega)
        omega
  have k1 := key 1000 (by omega)
  have k2 := key 10000 (by omega)
  rw [show daysBeforeYear 1000 = 364877 by decide] at k1
  rw [show daysBeforeYear 10000 = 3652059 by decide] at k2
  constructor
  · constructor
    · intro h; have := k1.2 h; omega
    · intro h
      by_cases h' : t.year < 1000
      · have := k1.1 h'; omega
      · omega
  · constructor
    · intro h; exact k2.1 (by omega)
    · intro h
      by_cases h' : 10000 ≤ t.year
      · have := k2.2 h'; omega
      · omega

/-- What `atOffset` returns. -/
theorem atOffset_ok {i off : Int} {d : DT} (h : atOffset i off = .ok d) : d.Valid ∧ d.year ≤ 9999 ∧ (d.micros : Int) = epoch + i + off := by
  unfold atOffset at h
  dsimp only at h
  split at h
  · simp at h
  · split at h
    · simp at h
    · rename_i h1 h2
      cases h
      obtain ⟨g1, g2⟩ := ofMicros_valid (epoch + i + off).toNat
      exact ⟨g1, by omega, by rw [g2]; omega⟩

theorem atOffset_error {i off : Int} {e : Err} : atOffset i off = .error e ↔
    e = .rangeError ∧ (i + off < year1 ∨ year10000 ≤ i + off) := by
  have he : epoch = 62135596800000000 := by decide
  unfold atOffset year1 year10000
  dsimp only
  split
  · rename_i h
    constructor
    · intro h'; cases h'; exact ⟨rfl, .inl (by omega)⟩
    · rintro ⟨rfl, -⟩; rfl
  · rename_i h
    obtain ⟨g1, g2⟩ := ofMicros_valid (epoch + i + off).toNat
    have hb := (year_bounds g1).2
    rw [g2] at hb
    split
    · rename_i h2
      constructor
      · intro h'; cases h'
        refine ⟨rfl, .inr ?_⟩
        have : ¬ (ofMicros (epoch + i + off).toNat).year ≤ 9999 := by omega
        rw [hb] at this
        omega
      · rintro ⟨rfl, -⟩; rfl
    · rename_i h2
      constructor
      · intro h'; cases h'
      · rintro ⟨-, h' | h'⟩
        · omega
        · have : (ofMicros (epoch + i + off).toNat).year ≤ 9999 := by omega
          rw [hb] at this
          omega

/-- A valid datetime is the one at its instant. -/
theorem atOffset_micros {d : DT} (h : d.Valid) (h' : d.year ≤ 9999) (i off : Int) (hi : epoch + i + off = d.micros) : atOffset i off = .ok d := by
  unfold atOffset
  dsimp only
  rw [hi, if_neg (by omega), Int.toNat_natCast, ofMicros_micros h, if_neg (by omega)]

/-! ### The theorems -/

/-- C58: the timestamp depends only on the instant, whatever the type and time zone: it is the UTC date and
time of that instant. -/
theorem C58_utc (env : Env) (x : Arg) (hx : x.Valid) (i : Int) (hi : x.instant env = some i) (b : Bool) :
    timestamp3339Z env x (some b) = (atOffset i 0).map (fun d => strftime3339 d b) := by
  unfold timestamp3339Z
  cases x with
  | pyNone => cases hi; simp only [unstruct]; cases atOffset env.now 0 <;> rfl
  | int n => cases hi; simp only [unstruct]; cases atOffset (n * 1000000) 0 <;> rfl
  | float n => cases hi; simp only [unstruct]; cases atOffset i 0 <;> rfl
  | structTime gmt n =>
    cases hi
    cases gmt <;> simp only [unstruct, Bool.false_eq_true, if_false, if_true] <;> cases atOffset (n * 1000000) 0 <;> rfl
  | datetime d tz =>
    cases tz with
    | none =>
      cases hi
      simp only [unstruct]
      rw [if_neg (by simp), Option.getD_none]
      cases atOffset (d.micros - epoch - env.localOf d) 0 <;> rfl
    | some off =>
      cases hi
      simp only [unstruct]
      by_cases h0 : off = 0
      · subst h0
        rw [if_pos rfl, atOffset_micros hx.1 hx.2 _ _ (by omega)]
        rfl
      · rw [if_neg (by simpa using h0), Option.getD_some]
        cases atOffset (d.micros - epoch - off) 0 <;> rfl
  | other => cases hi

/-- C58: TypeError is raised exactly for an argument of another type, and an instant outside of the years 1
to 9999 is the only other error. -/
theorem C58_raises (env : Env) (x : Arg) (hx : x.Valid) (b : Bool) (e : Err) :
    timestamp3339Z env x (some b) = .error e ↔
      (x.instant env = none ∧ e = .typeError) ∨
      (∃ i, x.instant env = some i ∧ e = .rangeError ∧ (i < year1 ∨ year10000 ≤ i)) := by
  cases hi : x.instant env with
  | none =>
    have : timestamp3339Z env x (some b) = .error .typeError := by
      cases x with
      | other => rfl
      | datetime d tz => cases tz <;> simp [Arg.instant] at hi
      | _ => simp [Arg.instant] at hi
    rw [this]
    simp [eq_comm]
  | some i =>
    rw [C58_utc env x hx i hi b]
    have := atOffset_error (i := i) (off := 0) (e := e)
    rw [Int.add_zero] at this
    cases ha : atOffset i 0 with
    | error e' =>
      rw [ha] at this
      have h' : (Except.map (fun d => strftime3339 d b) (Except.error e') : Except Err (List Char)) = .error e ↔ (Except.error e' : Except Err DT) = .error e := by
        simp [Except.map]
      rw [h', this]
      simp
    | ok d =>
      rw [ha] at this
      simp only [Except.map]
      constructor
      · intro h; cases h
      · rintro (⟨h, -⟩ | ⟨i', h, h2⟩)
        · simp at h
        · cases h; have := this.2 h2; cases this

/-- C58: from the year 1000 on, and with the same precision, the order of the timestamps as strings is the
order of the instants. -/
theorem C58_order (env : Env) (x y : Arg) (hx : x.Valid) (hy : y.Valid) (i j : Int)
    (hi : x.instant env = some i) (hj : y.instant env = some j) (hi0 : year1000 ≤ i) (hj0 : year1000 ≤ j) (b : Bool) (u v : List Char)
    (hu : timestamp3339Z env x (some b) = .ok u) (hv : timestamp3339Z env y (some b) = .ok v) :
    (u < v ↔ roundTo b i < roundTo b j) ∧ (u = v ↔ roundTo b i = roundTo b j) := by
  have he : epoch = 62135596800000000 := by decide
  rw [C58_utc env x hx i hi b] at hu
  rw [C58_utc env y hy j hj b] at hv
  cases h1 : atOffset i 0 with
  | error e => rw [h1] at hu; cases hu
  | ok c =>
    cases h2 : atOffset j 0 with
    | error e => rw [h2] at hv; cases hv
    | ok d =>
      rw [h1] at hu; rw [h2] at hv
      cases hu; cases hv
      obtain ⟨c1, c2, c3⟩ := atOffset_ok h1
      obtain ⟨d1, d2, d3⟩ := atOffset_ok h2
      have bc := (year_bounds c1).1
      have bd := (year_bounds d1).1
      unfold year1000 at hi0 hj0
      obtain ⟨g1, g2⟩ := stamp_iff c1 d1 (bc.2 (by omega)) (bd.2 (by omega)) c2 d2 b
      dsimp only
      rw [g1, g2]
      unfold roundTo
      cases b with
      | true => simp only [if_true]; constructor <;> omega
      | false =>
        simp only [Bool.false_eq_true, if_false]
        have := c1.micro
        have := d1.micro
        rw [micros_eq] at c3 d3
        constructor <;> omega

/-- C58: a timestamp, read by position as RFC 3339 has it, is the instant, up to its precision. -/
theorem C58_reads (env : Env) (x : Arg) (hx : x.Valid) (i : Int)
    (hi : x.instant env = some i) (hi0 : year1000 ≤ i) (b : Bool) (u : List Char)
    (hu : timestamp3339Z env x (some b) = .ok u) :
    (readStamp u).Valid ∧ ((readStamp u).micros : Int) - epoch = roundTo b i := by
  have he : epoch = 62135596800000000 := by decide
  rw [C58_utc env x hx i hi b] at hu
  cases h1 : atOffset i 0 with
  | error e => rw [h1] at hu; cases hu
  | ok c =>
    rw [h1] at hu
    cases hu
    obtain ⟨c1, c2, c3⟩ := atOffset_ok h1
    have bc := (year_bounds c1).1
    unfold year1000 at hi0
    have hr := readStamp_eq c1 (bc.2 (by omega)) c2 b
    dsimp only
    rw [hr]
    have hmi := c1.micro
    refine ⟨⟨c1.year, c1.month, c1.day, c1.hour, c1.minute, c1.second, ?_⟩, ?_⟩
    · dsimp only; split <;> omega
    · rw [micros_eq] at c3 ⊢
      show ((DT.secs c * 1000000 + if b = true then c.micro else 0 : Nat) : Int) - epoch = roundTo b i
      unfold roundTo
      cases b with
      | true => simp only [if_true]; omega
      | false => simp only [Bool.false_eq_true, if_false]; omega

/-- C58: the form of a timestamp. -/
theorem C58_format (env : Env) (x : Arg) (hx : x.Valid) (i : Int)
    (hi : x.instant env = some i) (hi0 : year1000 ≤ i) (b : Bool) (u : List Char)
    (hu : timestamp3339Z env x (some b) = .ok u) :
    u.map (fun c => if c.isDigit then '0' else c) =
      if b then "0000-00-00T00:00:00.000000Z".toList else "0000-00-00T00:00:00Z".toList := by
  have he : epoch = 62135596800000000 := by decide
  rw [C58_utc env x hx i hi b] at hu
  cases h1 : atOffset i 0 with
  | error e => rw [h1] at hu; cases hu
  | ok c =>
    rw [h1] at hu
    cases hu
    obtain ⟨c1, c2, c3⟩ := atOffset_ok h1
    have bc := (year_bounds c1).1
    unfold year1000 at hi0
    exact shape_3339 (bc.2 (by omega)) c2 b

/-- C95: without want_microseconds the microseconds are shown as documented, for every argument but a
float. For floats they should be shown and never are (`C95_float_default`). -/
theorem C95_default (env : Env) (x : Arg) (hx : x.isFloat = false) :
    timestamp3339Z env x none = timestamp3339Z env x (some x.fractional) := by
  cases x with
  | float n => simp [Arg.isFloat] at hx
  | pyNone => simp only [timestamp3339Z, unstruct, Arg.fractional]; cases atOffset env.now 0 <;> rfl
  | int n => simp only [timestamp3339Z, unstruct, Arg.fractional]; cases atOffset (n * 1000000) 0 <;> rfl
  | structTime gmt n => cases gmt <;> rfl
  | datetime d tz =>
    simp only [timestamp3339Z, unstruct, Arg.fractional]
    split
    · rfl
    · cases atOffset _ 0 <;> rfl
  | other => rfl

/-- C95, a disagreement: the docstring says that a float's microseconds are shown by default, but they are not. -/
theorem C95_float_default (env : Env) (n : Int) :
    (Arg.float n).fractional = true ∧ timestamp3339Z env (.float n) none = timestamp3339Z env (.float n) (some false) := by
  refine ⟨rfl, ?_⟩
  simp only [timestamp3339Z, unstruct]; cases atOffset n 0 <;> rfl

/-- C95: so that two floats half a second apart can give the same timestamp. -/
theorem C95_float_counterexample (env : Env) :
    timestamp3339Z env (.float 0) none = timestamp3339Z env (.float 500000) none ∧
    timestamp3339Z env (.float 0) none = .ok "1970-01-01T00:00:00Z".toList := by
  have h1 : atOffset 0 0 = .ok ⟨1970, 1, 1, 0, 0, 0, 0⟩ :=
    atOffset_micros ⟨by decide, by decide, by decide, by decide, by decide, by decide, by decide⟩ (by decide) _ _ (by decide)
  have h2 : atOffset 500000 0 = .ok ⟨1970, 1, 1, 0, 0, 0, 500000⟩ :=
    atOffset_micros ⟨by decide, by decide, by decide, by decide, by decide, by decide, by decide⟩ (by decide) _ _ (by decide)
  simp only [timestamp3339Z, unstruct, h1, h2]
  exact ⟨by rfl, by decide +kernel⟩

/-- C58: timestamp_human shows the microseconds by default as documented, for every argument. -/
theorem C58_human_default (env : Env) (x : Arg) :
    timestampHuman env x none = timestampHuman env x (some x.fractional) := by
  cases x with
  | float n => simp only [timestampHuman, unstruct, Arg.fractional]; cases atOffset n _ <;> rfl
  | pyNone => simp only [timestampHuman, unstruct, Arg.fractional]; cases atOffset env.now _ <;> rfl
  | int n => simp only [timestampHuman, unstruct, Arg.fractional]; cases atOffset (n * 1000000) _ <;> rfl
  | structTime gmt n => cases gmt <;> rfl
  | datetime d tz =>
    cases tz with
    | none => rfl
    | some off =>
      simp only [timestampHuman, unstruct, Arg.fractional]
      cases atOffset _ _ <;> rfl
  | other => rfl

/-- C58: timestamp_human shows local time, except that a naive datetime is shown as it is. -/
theorem C58_human_local (env : Env) (x : Arg) (i : Int) (hi : x.instant env = some i) (b : Bool) :
    (∀ d, x = .datetime d none → timestampHuman env x (some b) = .ok (strftimeHuman d b)) ∧
    ((∀ d, x ≠ .datetime d none) →
      timestampHuman env x (some b) = (atOffset i (env.localAt i)).map (fun d => strftimeHuman d b)) := by
  constructor
  · rintro d rfl; rfl
  · intro hx
    cases x with
    | float n => cases hi; simp only [timestampHuman, unstruct]; cases atOffset i _ <;> rfl
    | pyNone => cases hi; simp only [timestampHuman, unstruct]; cases atOffset env.now _ <;> rfl
    | int n => cases hi; simp only [timestampHuman, unstruct]; cases atOffset (n * 1000000) _ <;> rfl
    | structTime gmt n =>
      cases hi
      cases gmt <;> simp only [timestampHuman, unstruct, Bool.false_eq_true, if_false, if_true] <;> cases atOffset (n * 1000000) _ <;> rfl
    | datetime d tz =>
      cases tz with
      | none => exact absurd rfl (hx d)
      | some off =>
        cases hi
        simp only [timestampHuman, unstruct]
        cases atOffset _ _ <;> rfl
    | other => cases hi

/-- C58: timestamp_human shows local time: its form, and what is read from it by position. -/
theorem C58_human_reads (env : Env) (x : Arg) (i : Int) (hi : x.instant env = some i)
    (hx : ∀ d, x ≠ .datetime d none) (hi0 : year1000 ≤ i + env.localAt i) (b : Bool) (u : List Char)
    (hu : timestampHuman env x (some b) = .ok u) :
    ((readStamp u).micros : Int) - epoch = roundTo b (i + env.localAt i) ∧
    u.map (fun c => if c.isDigit then '0' else c) =
      if b then "0000/00/00 00:00:00.000000".toList else "0000/00/00 00:00:00".toList := by
  have he : epoch = 62135596800000000 := by decide
  rw [(C58_human_local env x i hi b).2 hx] at hu
  cases h1 : atOffset i (env.localAt i) with
  | error e => rw [h1] at hu; cases hu
  | ok c =>
    rw [h1] at hu
    cases hu
    obtain ⟨c1, c2, c3⟩ := atOffset_ok h1
    have bc := (year_bounds c1).1
    unfold year1000 at hi0
    refine ⟨?_, shape_human (bc.2 (by omega)) c2 b⟩
    have hr := readStamp_human c1 (bc.2 (by omega)) c2 b
    dsimp only
    rw [hr]
    have hmi := c1.micro
    rw [micros_eq] at c3 ⊢
    show ((DT.secs c * 1000000 + if b = true then c.micro else 0 : Nat) : Int) - epoch = _
    unfold roundTo
    cases b with
    | true => simp only [if_true]; omega
    | false => simp only [Bool.false_eq_true, if_false]; omega

/-- C58, why the years before 1000 are left out: `%Y` is not padded. -/
theorem C58_year_999 : DT.micros ⟨999, 12, 31, 0, 0, 0, 0⟩ < DT.micros ⟨1000, 1, 1, 0, 0, 0, 0⟩ ∧
    strftime3339 ⟨1000, 1, 1, 0, 0, 0, 0⟩ false < strftime3339 ⟨999, 12, 31, 0, 0, 0, 0⟩ false := by
  decide +kernel

/-- C58: datetime_ensure_timezone always returns a datetime with a time zone, with the same fields, and changes
nothing if there is one already; datetime_set_timezone sets it in any case. -/
theorem C58_timezone (t : DT × Option Int) (tz : Int) :
    setTimezone t tz = (t.1, some tz) ∧
    (∀ off, t.2 = some off → ensureTimezone t tz = t) ∧ (t.2 = none → ensureTimezone t tz = (t.1, some tz)) := by
  refine ⟨rfl, ?_, ?_⟩
  · intro off h; unfold ensureTimezone; rw [h]
  · intro h; unfold ensureTimezone; rw [h]; rfl

/-! ### Examples -/

/-- The hypotheses of `C58_order` are met: a datetime in another time zone and an int. -/
example (env : Env) : timestamp3339Z env (.datetime ⟨2021, 5, 24, 23, 46, 35, 425327⟩ (some (-25200000000))) (some true) =
      .ok "2021-05-25T06:46:35.425327Z".toList ∧
    timestamp3339Z env (.int 1621925195) (some true) = .ok "2021-05-25T06:46:35.000000Z".toList := by
  have h1 : atOffset 1621925195425327 0 = .ok ⟨2021, 5, 25, 6, 46, 35, 425327⟩ :=
    atOffset_micros ⟨by decide, by decide, by decide, by decide, by decide, by decide, by decide⟩ (by decide) _ _ (by decide +kernel)
  have h2 : atOffset 1621925195000000 0 = .ok ⟨2021, 5, 25, 6, 46, 35, 0⟩ :=
    atOffset_micros ⟨by decide, by decide, by decide, by decide, by decide, by decide, by decide⟩ (by decide) _ _ (by decide +kernel)
  have hv : (Arg.datetime ⟨2021, 5, 24, 23, 46, 35, 425327⟩ (some (-25200000000))).Valid :=
    ⟨⟨by decide, by decide, by decide, by decide, by decide, by decide, by decide⟩, by decide⟩
  have e1 : (Arg.datetime ⟨2021, 5, 24, 23, 46, 35, 425327⟩ (some (-25200000000))).instant env = some 1621925195425327 := by
    show some ((DT.micros ⟨2021, 5, 24, 23, 46, 35, 425327⟩ : Int) - epoch - (-25200000000)) = _
    decide +kernel
  rw [C58_utc env _ hv _ e1, C58_utc env (.int 1621925195) trivial 1621925195000000 rfl, h1, h2]
  exact ⟨by decide +kernel, by decide +kernel⟩

end Big.Time
