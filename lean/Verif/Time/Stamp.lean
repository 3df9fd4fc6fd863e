import Verif.Time.Calendar
/-! # Lemmas on timestamps as strings -/
namespace Big.Time

/-! ### Order of strings -/

theorem append_lt_append : ∀ {a a' b b' : List Char}, a.length = a'.length →
    (a ++ b < a' ++ b' ↔ a < a' ∨ (a = a' ∧ b < b')) := by
  intro a
  induction a with
  | nil =>
    intro a' b b' h
    have : a' = [] := List.length_eq_zero_iff.1 (by simpa using h.symm)
    subst this; simp
  | cons x a ih =>
    intro a' b b' h
    cases a' with
    | nil => simp at h
    | cons y a' =>
      rw [List.cons_append, List.cons_append, List.cons_lt_cons_iff, List.cons_lt_cons_iff, ih (by simpa using h)]
      constructor
      · rintro (h | ⟨h1, h2 | ⟨h2, h3⟩⟩)
        · exact .inl (.inl h)
        · exact .inl (.inr ⟨h1, h2⟩)
        · exact .inr ⟨by rw [h1, h2], h3⟩
      · rintro ((h | ⟨h1, h2⟩) | ⟨h1, h2⟩)
        · exact .inl h
        · exact .inr ⟨h1, .inl h2⟩
        · cases h1; exact .inr ⟨rfl, .inr ⟨rfl, h2⟩⟩

theorem append_eq_append {a a' b b' : List Char} (h : a.length = a'.length) : a ++ b = a' ++ b' ↔ a = a' ∧ b = b' := by
  constructor
  · intro h'; exact List.append_inj h' h
  · rintro ⟨rfl, rfl⟩; rfl

/-! ### Digits -/

theorem digit_toNat (n : Nat) : (digit n).toNat = 48 + n % 10 := by
  unfold digit
  have h : n % 10 < 10 := by omega
  generalize n % 10 = k at *
  have : k = 0 ∨ k = 1 ∨ k = 2 ∨ k = 3 ∨ k = 4 ∨ k = 5 ∨ k = 6 ∨ k = 7 ∨ k = 8 ∨ k = 9 := by omega
  rcases this with rfl | rfl | rfl | rfl | rfl | rfl | rfl | rfl | rfl | rfl <;> rfl

theorem digit_lt {n m : Nat} : digit n < digit m ↔ n % 10 < m % 10 := by
  rw [Char.lt_def, UInt32.lt_iff_toNat_lt]
  show (digit n).toNat < (digit m).toNat ↔ _
  rw [digit_toNat, digit_toNat]; omega

theorem digit_eq {n m : Nat} : digit n = digit m ↔ n % 10 = m % 10 := by
  constructor
  · intro h
    have := congrArg Char.toNat h
    rw [digit_toNat, digit_toNat] at this; omega
  · intro h; unfold digit; rw [h]

theorem pad_length : ∀ (w n : Nat), (pad w n).length = w := by
  intro w
  induction w with
  | zero => intro n; rfl
  | succ w ih => intro n; rw [pad]; simp [ih]

theorem pad_iff : ∀ (w n m : Nat), n < 10 ^ w → m < 10 ^ w → (pad w n < pad w m ↔ n < m) ∧ (pad w n = pad w m ↔ n = m) := by
  intro w
  induction w with
  | zero =>
    intro n m hn hm
    have h1 : n = 0 := by simpa using hn
    have h2 : m = 0 := by simpa using hm
    subst h1; subst h2
    simp [pad]
  | succ w ih =>
    intro n m hn hm
    rw [Nat.pow_succ] at hn hm
    obtain ⟨h1, h2⟩ := ih (n / 10) (m / 10) (by omega) (by omega)
    rw [pad, pad, append_lt_append (by rw [pad_length, pad_length]), append_eq_append (by rw [pad_length, pad_length]), h1, h2]
    have hs : ([digit n] : List Char) < [digit m] ↔ n % 10 < m % 10 := by
      rw [List.cons_lt_cons_iff, digit_lt]; simp
    have he : ([digit n] : List Char) = [digit m] ↔ n % 10 = m % 10 := by
      rw [List.cons.injEq, digit_eq]; simp
    rw [hs, he]
    constructor <;> omega

theorem yearText_eq {y : Nat} (h1 : 1000 ≤ y) (h2 : y ≤ 9999) : yearText y = pad 4 y := by
  unfold yearText
  obtain ⟨k, hk⟩ : ∃ k, y + 1 = k + 4 := ⟨y - 3, by omega⟩
  rw [hk]
  rw [decimal, if_neg (by omega), decimal, if_neg (by omega), decimal, if_neg (by omega), decimal, if_pos (by omega)]
  simp [pad]

/-! ### Timestamps -/

/-- Everything down to the seconds. -/
def stampBase (t : DT) : List Char :=
  pad 4 t.year ++ ('-' :: pad 2 t.month ++ ('-' :: pad 2 t.day ++ ('T' :: pad 2 t.hour ++ (':' :: pad 2 t.minute ++ (':' :: pad 2 t.second)))))

theorem stampBase_length (t : DT) : (stampBase t).length = 19 := by
  unfold stampBase; simp [pad_length]

theorem strftime3339_eq {t : DT} (h1 : 1000 ≤ t.year) (h2 : t.year ≤ 9999) (b : Bool) :
    strftime3339 t b = stampBase t ++ ((if b then '.' :: pad 6 t.micro else []) ++ ['Z']) := by
  unfold strftime3339 stampBase
  rw [yearText_eq h1 h2]
  simp only [List.append_assoc, List.cons_append]

theorem daysIn_le (y m : Nat) : daysIn y m ≤ 31 := by
  unfold daysIn; split
  · split <;> omega
  · split <;> omega

theorem stampBase_iff {a b : DT} (ha : a.Valid) (hb : b.Valid) (ha' : a.year ≤ 9999) (hb' : b.year ≤ 9999) :
    (stampBase a < stampBase b ↔ secLt a b) ∧ (stampBase a = stampBase b ↔ secEq a b) := by
  have hl : ∀ w n m, (pad w n).length = (pad w m).length := fun w n m => by rw [pad_length, pad_length]
  have hcl : ∀ (c : Char) (x y : List Char), (c :: x < c :: y ↔ x < y) := by
    intro c x y; rw [List.cons_lt_cons_iff]; simp
  obtain ⟨y1, y2⟩ := pad_iff 4 a.year b.year (by omega) (by omega)
  obtain ⟨m1, m2⟩ := pad_iff 2 a.month b.month (by have := ha.month; omega) (by have := hb.month; omega)
  obtain ⟨d1, d2⟩ := pad_iff 2 a.day b.day (by have := ha.day; have := daysIn_le a.year a.month; omega)
    (by have := hb.day; have := daysIn_le b.year b.month; omega)
  obtain ⟨h1, h2⟩ := pad_iff 2 a.hour b.hour (by have := ha.hour; omega) (by have := hb.hour; omega)
  obtain ⟨i1, i2⟩ := pad_iff 2 a.minute b.minute (by have := ha.minute; omega) (by have := hb.minute; omega)
  obtain ⟨s1, s2⟩ := pad_iff 2 a.second b.second (by have := ha.second; omega) (by have := hb.second; omega)
  unfold stampBase
  simp only [List.cons_append]
  constructor
  · rw [append_lt_append (hl _ _ _), hcl, append_lt_append (hl _ _ _), hcl, append_lt_append (hl _ _ _), hcl, append_lt_append (hl _ _ _),
      hcl, append_lt_append (hl _ _ _), hcl, y1, y2, m1, m2, d1, d2, h1, h2, i1, i2, s1]
    unfold secLt dateLt
    dsimp only
    omega
  · rw [append_eq_append (hl _ _ _), List.cons_inj_right, append_eq_append (hl _ _ _), List.cons_inj_right, append_eq_append (hl _ _ _),
      List.cons_inj_right, append_eq_append (hl _ _ _), List.cons_inj_right,
      append_eq_append (hl _ _ _), List.cons_inj_right, y2, m2, d2, h2, i2, s2]
    unfold secEq
    omega

theorem stamp_iff {a b : DT} (ha : a.Valid) (hb : b.Valid) (ha1 : 1000 ≤ a.year) (hb1 : 1000 ≤ b.year)
    (ha' : a.year ≤ 9999) (hb' : b.year ≤ 9999) (m : Bool) :
    (strftime3339 a m < strftime3339 b m ↔ if m then a.micros < b.micros else a.secs < b.secs) ∧
    (strftime3339 a m = strftime3339 b m ↔ if m then a.micros = b.micros else a.secs = b.secs) := by
  have hbl : (stampBase a).length = (stampBase b).length := by rw [stampBase_length, stampBase_length]
  obtain ⟨g1, g2⟩ := stampBase_iff ha hb ha' hb'
  obtain ⟨k1, k2⟩ := secs_iff ha hb
  obtain ⟨f1, f2⟩ := pad_iff 6 a.micro b.micro ha.micro hb.micro
  rw [strftime3339_eq ha1 ha', strftime3339_eq hb1 hb', append_lt_append hbl, append_eq_append hbl, g1, g2, ← k1, ← k2]
  have hZ : ¬ (['Z'] : List Char) < ['Z'] := List.lt_irrefl _
  cases m with
  | false =>
    simp only [Bool.false_eq_true, if_false, List.nil_append]
    constructor
    · constructor
      · rintro (h | ⟨-, h⟩)
        · exact h
        · exact absurd h hZ
      · exact .inl
    · simp
  | true =>
    simp only [if_true]
    have e1 : ('.' :: pad 6 a.micro ++ ['Z'] < '.' :: pad 6 b.micro ++ ['Z']) ↔ a.micro < b.micro := by
      rw [List.cons_append, List.cons_append, List.cons_lt_cons_iff, append_lt_append (by rw [pad_length, pad_length]), f1]
      constructor
      · rintro (h | ⟨-, h | ⟨-, h⟩⟩)
        · exact absurd h (by decide)
        · exact h
        · exact absurd h hZ
      · intro h; exact .inr ⟨rfl, .inl h⟩
    have e2 : ('.' :: pad 6 a.micro ++ ['Z'] = '.' :: pad 6 b.micro ++ ['Z']) ↔ a.micro = b.micro := by
      rw [List.append_cancel_right_eq, List.cons_inj_right, f2]
    rw [e1, e2, micros_eq, micros_eq]
    have := ha.micro
    have := hb.micro
    constructor <;> omega

/-! ### Reading -/

theorem digitVal_digit (n : Nat) : digitVal (digit n) = n % 10 := by
  unfold digitVal; rw [digit_toNat]; omega

theorem readNat_pad : ∀ (w n : Nat), n < 10 ^ w → readNat (pad w n) = n := by
  intro w
  induction w with
  | zero => intro n hn; have : n = 0 := by simpa using hn
            subst this; rfl
  | succ w ih =>
    intro n hn
    rw [Nat.pow_succ] at hn
    rw [pad]
    unfold readNat
    rw [List.foldl_append]
    have := ih (n / 10) (by omega)
    unfold readNat at this
    rw [this]
    simp only [List.foldl_cons, List.foldl_nil, digitVal_digit]
    omega

/-- The text at a place in a timestamp. -/
theorem take_drop_mid (a b c : List Char) (n w : Nat) (ha : a.length = n) (hb : b.length = w) : ((a ++ (b ++ c)).drop n).take w = b := by
  subst ha; subst hb; simp

theorem readStamp_eq {t : DT} (ht : t.Valid) (h1 : 1000 ≤ t.year) (h2 : t.year ≤ 9999) (m : Bool) :
    readStamp (strftime3339 t m) = { t with micro := if m then t.micro else 0 } := by
  have hmo := ht.month
  have hd := ht.day
  have hdl := daysIn_le t.year t.month
  have hh := ht.hour
  have hmi := ht.minute
  have hs := ht.second
  have hmc := ht.micro
  rw [strftime3339_eq h1 h2]
  generalize htl : (if m = true then '.' :: pad 6 t.micro else []) ++ ['Z'] = tl
  unfold readStamp
  have e1 : (stampBase t ++ tl).take 4 = pad 4 t.year := by
    unfold stampBase
    have := take_drop_mid [] (pad 4 t.year) (('-' :: pad 2 t.month ++ ('-' :: pad 2 t.day ++ ('T' :: pad 2 t.hour ++ (':' :: pad 2 t.minute ++ (':' :: pad 2 t.second))))) ++ tl) 0 4 rfl (pad_length _ _)
    simpa using this
  have e2 : ((stampBase t ++ tl).drop 5).take 2 = pad 2 t.month := by
    have := take_drop_mid (pad 4 t.year ++ ['-']) (pad 2 t.month) (('-' :: pad 2 t.day ++ ('T' :: pad 2 t.hour ++ (':' :: pad 2 t.minute ++ (':' :: pad 2 t.second)))) ++ tl) 5 2
      (by simp [pad_length]) (pad_length _ _)
    unfold stampBase
    simpa using this
  have e3 : ((stampBase t ++ tl).drop 8).take 2 = pad 2 t.day := by
    have := take_drop_mid (pad 4 t.year ++ '-' :: pad 2 t.month ++ ['-']) (pad 2 t.day) (('T' :: pad 2 t.hour ++ (':' :: pad 2 t.minute ++ (':' :: pad 2 t.second))) ++ tl) 8 2
      (by simp [pad_length]) (pad_length _ _)
    unfold stampBase
    simpa using this
  have e4 : ((stampBase t ++ tl).drop 11).take 2 = pad 2 t.hour := by
    have := take_drop_mid (pad 4 t.year ++ '-' :: pad 2 t.month ++ '-' :: pad 2 t.day ++ ['T']) (pad 2 t.hour) ((':' :: pad 2 t.minute ++ (':' :: pad 2 t.second)) ++ tl) 11 2
      (by simp [pad_length]) (pad_length _ _)
    unfold stampBase
    simpa using this
  have e5 : ((stampBase t ++ tl).drop 14).take 2 = pad 2 t.minute := by
    have := take_drop_mid (pad 4 t.year ++ '-' :: pad 2 t.month ++ '-' :: pad 2 t.day ++ 'T' :: pad 2 t.hour ++ [':']) (pad 2 t.minute) ((':' :: pad 2 t.second) ++ tl) 14 2
      (by simp [pad_length]) (pad_length _ _)
    unfold stampBase
    simpa using this
  have e6 : ((stampBase t ++ tl).drop 17).take 2 = pad 2 t.second := by
    have := take_drop_mid (pad 4 t.year ++ '-' :: pad 2 t.month ++ '-' :: pad 2 t.day ++ 'T' :: pad 2 t.hour ++ ':' :: pad 2 t.minute ++ [':']) (pad 2 t.second) tl 17 2
      (by simp [pad_length]) (pad_length _ _)
    unfold stampBase
    simpa using this
  rw [e1, e2, e3, e4, e5, e6, readNat_pad 4 _ (by omega), readNat_pad 2 _ (by omega), readNat_pad 2 _ (by omega),
    readNat_pad 2 _ (by omega), readNat_pad 2 _ (by omega), readNat_pad 2 _ (by omega)]
  have e7 : (stampBase t ++ tl).drop 19 = tl := by
    rw [← stampBase_length t]; simp
  have e8 : (stampBase t ++ tl).drop 20 = tl.drop 1 := by
    rw [show 20 = 19 + 1 from rfl, ← List.drop_drop, e7]
  rw [e7, e8, ← htl]
  cases m with
  | false => simp
  | true =>
    have : ((['.'] ++ (pad 6 t.micro ++ ['Z'])).drop 1).take 6 = pad 6 t.micro := take_drop_mid ['.'] _ _ 1 6 rfl (pad_length _ _)
    simp only [if_true]
    rw [if_pos (by simp)]
    rw [show ('.' :: pad 6 t.micro ++ ['Z']) = (['.'] ++ (pad 6 t.micro ++ ['Z'])) from rfl, this, readNat_pad 6 _ (by omega)]

/-! ### The shape -/

/-- A timestamp with every digit replaced by 0. -/
def shape (l : List Char) : List Char := l.map (fun c => if c.isDigit then '0' else c)

theorem digit_isDigit (n : Nat) : (digit n).isDigit = true := by
  unfold digit
  have h : n % 10 < 10 := by omega
  generalize n % 10 = k at *
  have : k = 0 ∨ k = 1 ∨ k = 2 ∨ k = 3 ∨ k = 4 ∨ k = 5 ∨ k = 6 ∨ k = 7 ∨ k = 8 ∨ k = 9 := by omega
  rcases this with rfl | rfl | rfl | rfl | rfl | rfl | rfl | rfl | rfl | rfl <;> rfl

theorem shape_pad : ∀ (w n : Nat), shape (pad w n) = List.replicate w '0' := by
  intro w
  induction w with
  | zero => intro n; rfl
  | succ w ih =>
    intro n
    have := ih (n / 10)
    unfold shape at this ⊢
    rw [pad, List.map_append, this, List.replicate_succ']
    simp [digit_isDigit]

theorem shape_append (a b : List Char) : shape (a ++ b) = shape a ++ shape b := List.map_append
theorem shape_cons (c : Char) (l : List Char) : shape (c :: l) = (if c.isDigit then '0' else c) :: shape l := rfl

theorem shape_3339 {t : DT} (h1 : 1000 ≤ t.year) (h2 : t.year ≤ 9999) (m : Bool) :
    shape (strftime3339 t m) = if m then "0000-00-00T00:00:00.000000Z".toList else "0000-00-00T00:00:00Z".toList := by
  unfold strftime3339
  rw [yearText_eq h1 h2]
  cases m <;> simp only [shape_append, shape_cons, shape_pad, Bool.false_eq_true, if_false, if_true] <;> decide

theorem shape_human {t : DT} (h1 : 1000 ≤ t.year) (h2 : t.year ≤ 9999) (m : Bool) :
    shape (strftimeHuman t m) = if m then "0000/00/00 00:00:00.000000".toList else "0000/00/00 00:00:00".toList := by
  unfold strftimeHuman
  rw [yearText_eq h1 h2]
  cases m <;> simp only [shape_append, shape_cons, shape_pad, Bool.false_eq_true, if_false, if_true] <;> decide

/-- The same digits at the same places. -/
theorem readStamp_human {t : DT} (ht : t.Valid) (h1 : 1000 ≤ t.year) (h2 : t.year ≤ 9999) (m : Bool) :
    readStamp (strftimeHuman t m) = { t with micro := if m then t.micro else 0 } := by
  rw [← readStamp_eq ht h1 h2 m]
  unfold strftime3339 strftimeHuman
  rw [yearText_eq h1 h2]
  have h4 : ∀ n, ∃ a b c d, pad 4 n = [a, b, c, d] := fun n => ⟨_, _, _, _, rfl⟩
  have h2' : ∀ n, ∃ a b, pad 2 n = [a, b] := fun n => ⟨_, _, rfl⟩
  have h6 : ∀ n, ∃ a b c d e f, pad 6 n = [a, b, c, d, e, f] := fun n => ⟨_, _, _, _, _, _, rfl⟩
  obtain ⟨y1, y2, y3, y4, hy⟩ := h4 t.year
  obtain ⟨m1, m2, hm⟩ := h2' t.month
  obtain ⟨d1, d2, hd⟩ := h2' t.day
  obtain ⟨o1, o2, ho⟩ := h2' t.hour
  obtain ⟨i1, i2, hi⟩ := h2' t.minute
  obtain ⟨s1, s2, hs⟩ := h2' t.second
  obtain ⟨f1, f2, f3, f4, f5, f6, hf⟩ := h6 t.micro
  rw [hy, hm, hd, ho, hi, hs, hf]
  cases m <;> simp [readStamp]

end Big.Time
