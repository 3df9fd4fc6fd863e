import Verif.Time.Model
/-! # Lemmas on the calendar -/
namespace Big.Time

theorem daysIn_pos (y m : Nat) : 28 ≤ daysIn y m := by
  unfold daysIn; split
  · split <;> omega
  · split <;> omega

theorem daysBeforeMonth_succ (y m : Nat) (hm : 1 ≤ m) : daysBeforeMonth y (m + 1) = daysBeforeMonth y m + daysIn y m := by
  rw [daysBeforeMonth, if_neg (by omega)]

theorem daysBeforeMonth_one (y : Nat) : daysBeforeMonth y 1 = 0 := by
  rw [daysBeforeMonth]; rfl

theorem daysBeforeMonth_mono (y : Nat) {m m' : Nat} (hm : 1 ≤ m) (h : m < m') :
    daysBeforeMonth y m + daysIn y m ≤ daysBeforeMonth y m' := by
  induction m' with
  | zero => omega
  | succ k ih =>
    by_cases hk : m = k
    · subst hk; rw [daysBeforeMonth_succ _ _ hm]; omega
    · have := ih (by omega)
      rw [daysBeforeMonth_succ _ _ (by omega)]; omega

theorem yearLength (y : Nat) : daysBeforeMonth y 13 = if isLeap y then 366 else 365 := by
  have h : ∀ m, daysIn y m = if m = 2 then (if isLeap y then 29 else 28) else if m = 4 ∨ m = 6 ∨ m = 9 ∨ m = 11 then 30 else 31 := fun _ => rfl
  simp only [daysBeforeMonth, h]
  cases isLeap y <;> simp

theorem daysBeforeYear_succ (y : Nat) (hy : 1 ≤ y) : daysBeforeYear (y + 1) = daysBeforeYear y + daysBeforeMonth y 13 := by
  rw [yearLength]
  unfold daysBeforeYear isLeap
  have h1 : y + 1 - 1 = y := by omega
  rw [h1]
  by_cases h4 : y % 4 = 0
  · by_cases h100 : y % 100 = 0
    · by_cases h400 : y % 400 = 0
      · simp [h4, h100, h400]; omega
      · simp [h4, h100, h400]; omega
    · simp [h4, h100]; omega
  · simp [h4]; omega

theorem daysBeforeYear_mono {y y' : Nat} (hy : 1 ≤ y) (h : y < y') : daysBeforeYear y + daysBeforeMonth y 13 ≤ daysBeforeYear y' := by
  induction y' with
  | zero => omega
  | succ k ih =>
    by_cases hk : y = k
    · subst hk; rw [daysBeforeYear_succ _ hy]; omega
    · have := ih (by omega)
      rw [daysBeforeYear_succ _ (by omega)]; omega

/-- A valid date. -/
structure ValidDate (t : Nat × Nat × Nat) : Prop where
  year : 1 ≤ t.1
  month : 1 ≤ t.2.1 ∧ t.2.1 ≤ 12
  day : 1 ≤ t.2.2 ∧ t.2.2 ≤ daysIn t.1 t.2.1

/-- One date before another. -/
def dateLt (a b : Nat × Nat × Nat) : Prop :=
  a.1 < b.1 ∨ (a.1 = b.1 ∧ (a.2.1 < b.2.1 ∨ (a.2.1 = b.2.1 ∧ a.2.2 < b.2.2)))

theorem dayNumber_lt {a b : Nat × Nat × Nat} (ha : ValidDate a) (hb : ValidDate b) (h : dateLt a b) :
    dayNumber a.1 a.2.1 a.2.2 < dayNumber b.1 b.2.1 b.2.2 := by
  unfold dayNumber
  obtain ⟨a1, a2, a3⟩ := ha
  obtain ⟨b1, b2, b3⟩ := hb
  rcases h with h | ⟨h, h' | ⟨h', h''⟩⟩
  · have h1 := daysBeforeYear_mono a1 h
    have h2 := daysBeforeMonth_mono a.1 a2.1 (show a.2.1 < 13 by omega)
    omega
  · have h2 := daysBeforeMonth_mono a.1 a2.1 h'
    rw [← h]; omega
  · rw [← h, ← h']; omega

theorem nextDay_valid {a : Nat × Nat × Nat} (ha : ValidDate a) : ValidDate (nextDay a) ∧
    dayNumber (nextDay a).1 (nextDay a).2.1 (nextDay a).2.2 = dayNumber a.1 a.2.1 a.2.2 + 1 := by
  obtain ⟨y, m, d⟩ := a
  obtain ⟨a1, a2, a3⟩ := ha
  dsimp only at a1 a2 a3 ⊢
  unfold nextDay
  dsimp only
  split
  · exact ⟨⟨a1, a2, by dsimp only; omega⟩, by unfold dayNumber; dsimp only; omega⟩
  · split
    · refine ⟨⟨a1, by dsimp only; omega, ?_⟩, ?_⟩
      · have := daysIn_pos y (m + 1); dsimp only; omega
      · unfold dayNumber; dsimp only; rw [daysBeforeMonth_succ _ _ a2.1]; omega
    · refine ⟨⟨by dsimp only; omega, by dsimp only; omega, ?_⟩, ?_⟩
      · have := daysIn_pos (y + 1) 1; dsimp only; omega
      · unfold dayNumber; dsimp only
        have hm : m = 12 := by omega
        subst hm
        rw [daysBeforeYear_succ _ a1, daysBeforeMonth_one, daysBeforeMonth_succ y 12 (by omega)]; omega

theorem dateOf_valid (n : Nat) : ValidDate (dateOf n) ∧ dayNumber (dateOf n).1 (dateOf n).2.1 (dateOf n).2.2 = n := by
  induction n with
  | zero => exact ⟨⟨by decide, by decide, by decide⟩, by decide⟩
  | succ n ih =>
    have := nextDay_valid ih.1
    rw [dateOf]
    exact ⟨this.1, by rw [this.2, ih.2]⟩

/-- The seconds from the start of year 1. -/
def DT.secs (t : DT) : Nat := ((dayNumber t.year t.month t.day * 24 + t.hour) * 60 + t.minute) * 60 + t.second

theorem micros_eq (t : DT) : t.micros = t.secs * 1000000 + t.micro := rfl

theorem ofMicros_valid (n : Nat) : (ofMicros n).Valid ∧ (ofMicros n).micros = n := by
  obtain ⟨h1, h2⟩ := dateOf_valid (n / perDay)
  have hp : perDay = 86400000000 := by decide
  have hr : n % perDay < 86400000000 := by rw [hp]; omega
  refine ⟨⟨h1.year, h1.month, h1.day, ?_, ?_, ?_, ?_⟩, ?_⟩
  · show n % perDay / 3600000000 < 24; omega
  · show n % perDay / 60000000 % 60 < 60; omega
  · show n % perDay / 1000000 % 60 < 60; omega
  · show n % perDay % 1000000 < 1000000; omega
  · unfold DT.micros ofMicros
    dsimp only
    rw [h2]
    have : n = n / perDay * 86400000000 + n % perDay := by
      conv => lhs; rw [← Nat.div_add_mod n perDay]
      rw [hp, Nat.mul_comm]
    omega

/-- The order of the fields down to the seconds. -/
def secLt (a b : DT) : Prop :=
  dateLt (a.year, a.month, a.day) (b.year, b.month, b.day) ∨
  ((a.year = b.year ∧ a.month = b.month ∧ a.day = b.day) ∧
    (a.hour < b.hour ∨ (a.hour = b.hour ∧ (a.minute < b.minute ∨ (a.minute = b.minute ∧ a.second < b.second)))))

/-- The same fields down to the seconds. -/
def secEq (a b : DT) : Prop :=
  a.year = b.year ∧ a.month = b.month ∧ a.day = b.day ∧ a.hour = b.hour ∧ a.minute = b.minute ∧ a.second = b.second

theorem secs_lt {a b : DT} (ha : a.Valid) (hb : b.Valid) (h : secLt a b) : a.secs < b.secs := by
  obtain ⟨a1, a2, a3, a4, a5, a6, a7⟩ := ha
  obtain ⟨b1, b2, b3, b4, b5, b6, b7⟩ := hb
  unfold DT.secs
  rcases h with h | ⟨⟨h1, h2, h3⟩, h⟩
  · have := dayNumber_lt (a := (a.year, a.month, a.day)) (b := (b.year, b.month, b.day)) ⟨a1, a2, a3⟩ ⟨b1, b2, b3⟩ h
    dsimp only at this
    omega
  · rw [h1, h2, h3]; omega

theorem secEq_secs {a b : DT} (h : secEq a b) : a.secs = b.secs := by
  obtain ⟨h1, h2, h3, h4, h5, h6⟩ := h
  unfold DT.secs; rw [h1, h2, h3, h4, h5, h6]

theorem sec_total (a b : DT) : secLt a b ∨ secEq a b ∨ secLt b a := by
  unfold secLt secEq dateLt
  dsimp only
  omega

theorem secs_iff {a b : DT} (ha : a.Valid) (hb : b.Valid) : (a.secs < b.secs ↔ secLt a b) ∧ (a.secs = b.secs ↔ secEq a b) := by
  rcases sec_total a b with h | h | h
  · have := secs_lt ha hb h
    refine ⟨⟨fun _ => h, fun _ => this⟩, ⟨fun _ => by omega, fun h' => by have := secEq_secs h'; omega⟩⟩
  · have h0 := secEq_secs h
    refine ⟨⟨fun _ => by omega, fun h' => by have := secs_lt ha hb h'; omega⟩, ⟨fun _ => h, fun _ => h0⟩⟩
  · have := secs_lt hb ha h
    refine ⟨⟨fun _ => by omega, fun h' => by have := secs_lt ha hb h'; omega⟩, ⟨fun _ => by omega, fun h' => by have := secEq_secs h'; omega⟩⟩

theorem ofMicros_micros {t : DT} (ht : t.Valid) : ofMicros t.micros = t := by
  obtain ⟨h1, h2⟩ := ofMicros_valid t.micros
  have hs : (ofMicros t.micros).secs = t.secs := by
    have := h1.micro
    have := ht.micro
    rw [micros_eq, micros_eq] at h2
    rw [micros_eq] at *
    omega
  have hm : (ofMicros t.micros).micro = t.micro := by
    rw [micros_eq] at h2
    conv at h2 => rhs; rw [micros_eq]
    omega
  have := ((secs_iff h1 ht).2.1 hs)
  obtain ⟨g1, g2, g3, g4, g5, g6⟩ := this
  generalize ofMicros t.micros = u at *
  cases u; cases t
  simp_all

end Big.Time
