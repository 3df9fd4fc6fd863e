import Verif.Time.StructModel
import Verif.Time.Props
/-!
# C117: struct_time arguments
-/
namespace Big.Time

theorem timegm_eq {t : DT} (hv : t.Valid) (hy : t.year ≤ 9999) (hm : t.micro = 0) :
    ∃ n, timegm t = .ok n ∧ (t.micros : Int) = epoch + n * 1000000 := by
  have he : epoch = 62135596800000000 := by decide
  refine ⟨_, if_pos ⟨hv.year, hy, hv.month.1, hv.month.2⟩, ?_⟩
  have hd := hv.day.1
  rw [he]
  simp only [DT.micros, dayNumber, hm]
  omega

theorem yearText_short {y : Nat} (h : y < 1000) : (yearText y).length ≤ 3 := by
  unfold yearText
  by_cases h1 : y < 10
  · rw [decimal, if_pos h1]; simp
  · obtain ⟨k, rfl⟩ : ∃ k, y = k + 2 := ⟨y - 2, by omega⟩
    rw [decimal, if_neg h1]
    by_cases h2 : (k + 2) / 10 < 10
    · rw [decimal, if_pos h2]; simp
    · rw [decimal, if_neg h2, decimal, if_pos (by omega)]; simp

theorem stamp_length (d : DT) (b : Bool) :
    (strftime3339 d b).length = (yearText d.year).length + (if b then 23 else 16) := by
  unfold strftime3339
  cases b <;> simp [pad_length] <;> omega

/-- Two instants with the same timestamp are equal at its precision. -/
theorem stamp_inj {i j : Int} {b : Bool} {u : List Char} (hi : year1000 ≤ i)
    (hu : (atOffset i 0).map (fun d => strftime3339 d b) = .ok u)
    (hv : (atOffset j 0).map (fun d => strftime3339 d b) = .ok u) : roundTo b i = roundTo b j := by
  have he : epoch = 62135596800000000 := by decide
  have env : Env := ⟨0, fun _ => 0, fun _ => 0⟩
  have hu' := C58_utc env (.float i) trivial i rfl b
  have hv' := C58_utc env (.float j) trivial j rfl b
  rw [hu] at hu'
  rw [hv] at hv'
  by_cases hj : year1000 ≤ j
  · exact (C58_order env (.float i) (.float j) trivial trivial i j rfl rfl hi hj b u u hu' hv').2.mp rfl
  · exfalso
    cases h1 : atOffset i 0 with
    | error e => rw [h1] at hu; cases hu
    | ok d =>
      cases h2 : atOffset j 0 with
      | error e => rw [h2] at hv; cases hv
      | ok d' =>
        rw [h1] at hu; rw [h2] at hv
        simp only [Except.map, Except.ok.injEq] at hu hv
        obtain ⟨a1, a2, a3⟩ := atOffset_ok h1
        obtain ⟨b1, b2, b3⟩ := atOffset_ok h2
        have hy := (year_bounds a1).1
        have hy' := (year_bounds b1).1
        unfold year1000 at hi hj
        have hl := congrArg List.length (hu.trans hv.symm)
        rw [stamp_length, stamp_length, yearText_eq (hy.mpr (by omega)) a2, pad_length] at hl
        have := yearText_short (y := d'.year) (by
          rcases Nat.lt_or_ge d'.year 1000 with h | h
          · exact h
          · have := hy'.mp h; omega)
        omega

theorem denotes_timegm {s : ST} {i : Int} (h : s.Denotes i) :
    ∃ off, s.gmtoff = some off ∧ timegm s.fields = .ok (i + off) := by
  obtain ⟨off, h1, h2, h3, h4, h5⟩ := h
  obtain ⟨n, h6, h7⟩ := timegm_eq h2 h3 h4
  refine ⟨off, h1, ?_⟩
  rw [h6]; congr 1; omega

/-- **C117**, exactly: a struct_time that stands for an instant gives the timestamp of that instant if and only if its
zone is called GMT and it is 0 seconds from UTC, or its zone is not called GMT and mktime returns that instant. -/
theorem C117_struct_time_iff (env : Env) (mktime : DT → Int → Except Err Int) (s : ST) (i : Int) (h : s.Denotes i)
    (hi : year1000 ≤ i * 1000000) (hi' : i * 1000000 < year10000) (b : Bool) :
    structStamp env mktime s (some b) = timestamp3339Z env (.int i) (some b) ↔
      (s.zone = some "GMT" ∧ s.gmtoff = some 0) ∨ (s.zone ≠ some "GMT" ∧ mktime s.fields s.isdst = .ok i) := by
  obtain ⟨off, h1, h2⟩ := denotes_timegm h
  have key : ∀ g n, timestamp3339Z env (.structTime g n) (some b) = timestamp3339Z env (.int i) (some b) ↔ n = i := by
    intro g n
    constructor
    · intro e
      have e1 := C58_utc env (.structTime g n) trivial (n * 1000000) rfl b
      have e2 := C58_utc env (.int i) trivial (i * 1000000) rfl b
      cases hu : timestamp3339Z env (.int i) (some b) with
      | error er =>
        rcases (C58_raises env (.int i) trivial b er).mp hu with ⟨h, _⟩ | ⟨j, hj, _, h⟩
        · cases h
        · cases hj
          unfold year1 at h; unfold year1000 at hi; omega
      | ok u =>
        rw [e, hu] at e1
        rw [hu] at e2
        have := stamp_inj hi e2.symm e1.symm
        unfold roundTo at this
        split at this <;> omega
    · rintro rfl
      rw [C58_utc env (.structTime g n) trivial _ rfl b, C58_utc env (.int n) trivial _ rfl b]
  have herr : ∀ e, (Except.error e : Except Err (List Char)) ≠ timestamp3339Z env (.int i) (some b) := by
    intro e he
    rcases (C58_raises env (.int i) trivial b e).mp he.symm with ⟨h, _⟩ | ⟨j, hj, _, h⟩
    · cases h
    · cases hj
      unfold year1 at h; unfold year1000 at hi; omega
  unfold structStamp ST.arg ST.seconds
  by_cases hz : s.zone = some "GMT"
  · simp only [if_pos hz, h2, Except.map, key, h1]
    constructor
    · intro e; exact .inl ⟨hz, by congr 1; omega⟩
    · rintro (⟨_, e⟩ | ⟨e, _⟩)
      · have : off = 0 := by simpa using e
        omega
      · exact absurd hz e
  · rw [if_neg hz]
    cases hm : mktime s.fields s.isdst with
    | error e =>
      simp only [Except.map]
      constructor
      · intro he; exact absurd he (herr e)
      · rintro (⟨e, _⟩ | ⟨_, e⟩)
        · exact absurd e hz
        · cases e
    | ok n =>
      simp only [Except.map, key]
      constructor
      · rintro rfl; exact .inr ⟨hz, rfl⟩
      · rintro (⟨e, _⟩ | ⟨_, e⟩)
        · exact absurd e hz
        · cases e; rfl

/-- **C117**: then timestamp_human shows that instant as well, and both leave out the microseconds by default. -/
theorem C117_right (env : Env) (mktime : DT → Int → Except Err Int) (s : ST) (i : Int) (h : s.Denotes i)
    (hr : (s.zone = some "GMT" ∧ s.gmtoff = some 0) ∨ (s.zone ≠ some "GMT" ∧ mktime s.fields s.isdst = .ok i)) :
    (∀ b, structStamp env mktime s (some b) = timestamp3339Z env (.int i) (some b)) ∧
    (∀ b, structHuman env mktime s (some b) = timestampHuman env (.int i) (some b)) ∧
    structStamp env mktime s none = timestamp3339Z env (.int i) (some false) ∧
    structHuman env mktime s none = timestampHuman env (.int i) (some false) := by
  obtain ⟨off, h1, h2⟩ := denotes_timegm h
  have ha : ∃ g, s.arg mktime = .ok (.structTime g i) := by
    unfold ST.arg ST.seconds
    rcases hr with ⟨hz, e⟩ | ⟨hz, e⟩
    · rw [h1] at e
      have : off = 0 := by simpa using e
      rw [if_pos hz, h2, this, Int.add_zero]
      exact ⟨_, rfl⟩
    · rw [if_neg hz, e]
      exact ⟨_, rfl⟩
  obtain ⟨g, ha⟩ := ha
  have e1 : ∀ w, structStamp env mktime s w = timestamp3339Z env (.structTime g i) w := by
    intro w; unfold structStamp; rw [ha]
  have e2 : ∀ w, structHuman env mktime s w = timestampHuman env (.structTime g i) w := by
    intro w; unfold structHuman; rw [ha]
  have f1 : ∀ b, timestamp3339Z env (.structTime g i) (some b) = timestamp3339Z env (.int i) (some b) := by
    intro b; rw [C58_utc env (.structTime g i) trivial _ rfl b, C58_utc env (.int i) trivial _ rfl b]
  have f2 : ∀ b, timestampHuman env (.structTime g i) (some b) = timestampHuman env (.int i) (some b) := by
    intro b
    rw [(C58_human_local env (.structTime g i) (i * 1000000) rfl b).2 (by simp),
      (C58_human_local env (.int i) (i * 1000000) rfl b).2 (by simp)]
  refine ⟨fun b => (e1 _).trans (f1 b), fun b => (e2 _).trans (f2 b), ?_, ?_⟩
  · rw [e1, C95_default env _ rfl]; exact f1 false
  · rw [e2, C58_human_default env]; exact f2 false

/-- **C117**, a disagreement: a UTC struct_time whose zone is called "UTC" (time.gmtime on some systems, or
time.strptime with %Z) is taken for local time: its timestamp is that of another instant wherever local time is not
UTC. -/
theorem C117_counterexample_utc (env : Env) :
    let s : ST := ⟨⟨1970, 1, 1, 0, 0, 0, 0⟩, 0, some "UTC", some 0⟩
    let mktime : DT → Int → Except Err Int := fun t _ => (timegm t).map (· - 3600)
    s.Denotes 0 ∧ structStamp env mktime s none = .ok "1969-12-31T23:00:00Z".toList ∧
    timestamp3339Z env (.int 0) none = .ok "1970-01-01T00:00:00Z".toList := by
  have hv : DT.Valid ⟨1970, 1, 1, 0, 0, 0, 0⟩ :=
    ⟨by decide, by decide, by decide, by decide, by decide, by decide, by decide⟩
  refine ⟨⟨0, rfl, hv, by decide, rfl, by decide +kernel⟩, ?_, ?_⟩
  · have h0 : atOffset (-3600000000) 0 = .ok ⟨1969, 12, 31, 23, 0, 0, 0⟩ :=
      atOffset_micros ⟨by decide, by decide, by decide, by decide, by decide, by decide, by decide⟩ (by decide) _ _ (by decide)
    have h1 : (timegm ⟨1970, 1, 1, 0, 0, 0, 0⟩).map (fun x => x - 3600) = .ok (-3600) := by decide +kernel
    show structStamp env _ _ none = _
    simp only [structStamp, ST.arg, ST.seconds, h1]
    rw [if_neg (by decide)]
    simp only [Except.map]
    rw [C95_default env _ rfl, C58_utc env (.structTime _ _) trivial _ rfl]
    rw [show (-3600 : Int) * 1000000 = -3600000000 from by decide, h0]
    decide +kernel
  · have h0 : atOffset 0 0 = .ok ⟨1970, 1, 1, 0, 0, 0, 0⟩ := atOffset_micros hv (by decide) _ _ (by decide)
    rw [C95_default env _ rfl, C58_utc env (.int 0) trivial _ rfl]
    rw [show (0 : Int) * 1000000 = 0 from by decide, h0]
    decide +kernel

/-- **C117**, a disagreement: a struct_time whose zone is called "GMT" is taken for UTC whatever its offset: for each
one that is not 0 seconds from UTC the timestamp is wrong, whatever mktime is. -/
theorem C117_violated_gmt_offset (env : Env) (mktime : DT → Int → Except Err Int) (s : ST) (i : Int) (h : s.Denotes i)
    (hi : year1000 ≤ i * 1000000) (hi' : i * 1000000 < year10000) (hz : s.zone = some "GMT") (ho : s.gmtoff ≠ some 0)
    (b : Bool) : structStamp env mktime s (some b) ≠ timestamp3339Z env (.int i) (some b) := by
  intro e
  rcases (C117_struct_time_iff env mktime s i h hi hi' b).mp e with ⟨_, h⟩ | ⟨h, _⟩
  · exact ho h
  · exact h hz

/-- The hypotheses can be met: `time.gmtime(0)` on Linux stands for 0 and is right; a struct_time in a zone called GMT
an hour from UTC stands for an instant. -/
example : ST.Denotes ⟨⟨1970, 1, 1, 0, 0, 0, 0⟩, 0, some "GMT", some 0⟩ 0 ∧
    ST.Denotes ⟨⟨1970, 1, 1, 0, 0, 0, 0⟩, 0, some "GMT", some 3600⟩ (-3600) := by
  have hv : DT.Valid ⟨1970, 1, 1, 0, 0, 0, 0⟩ :=
    ⟨by decide, by decide, by decide, by decide, by decide, by decide, by decide⟩
  exact ⟨⟨0, rfl, hv, by decide, rfl, by decide +kernel⟩, ⟨3600, rfl, hv, by decide, rfl, by decide +kernel⟩⟩

end Big.Time
