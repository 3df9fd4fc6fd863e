import Verif.Log.PrintModel
import Verif.Log.Props
/-!
# C70: what Log.print prints
-/
namespace Big.Log

/-! ## Specification -/

/-- n spaces -/
def blanks (n : Nat) : List Char := List.replicate n ' '

/-- `line` is an event line laid out in columns: after `indent` blanks a first cell of `width`
characters, two blanks, a second cell of `width` characters, two blanks, and then the rest. -/
def InColumns (indent width : Nat) (cell1 cell2 rest line : List Char) : Prop :=
  cell1.length = width ∧ cell2.length = width ∧
  line = blanks indent ++ cell1 ++ blanks 2 ++ cell2 ++ blanks 2 ++ rest

/-- The events shown since the last reset, in order: text and depth. -/
def told (t₀ : Int) (h : List (Op × Int)) : List (String × Nat) :=
  (shown t₀ h).map fun x => (x.2.1, x.2.2)

/-! ## Lemmas -/

theorem repeatStr_blanks (n d : Nat) : repeatStr (blanks n) d = blanks (n * d) := by
  induction d with
  | zero => simp [repeatStr, blanks]
  | succ d ih =>
    simp only [repeatStr, ih]
    unfold blanks
    rw [List.replicate_append_replicate, Nat.mul_succ, Nat.add_comm]

theorem zeroPad_length (w : Nat) (s : List Char) : (zeroPad w s).length = max w s.length := by
  unfold zeroPad
  simp
  omega

theorem formatInt_nonneg (sw fw : Nat) (t : Int) (h : 0 ≤ t) :
    formatInt sw fw t = formatTime sw fw t.toNat := by
  obtain ⟨n, rfl⟩ := Int.eq_ofNat_of_zero_le h
  have e1 : (n : Int).fdiv 1000000000 = ((n / 1000000000 : Nat) : Int) := by
    rw [Int.fdiv_eq_ediv_of_nonneg _ (by omega)]; omega
  have e2 : (n : Int) - ((n / 1000000000 : Nat) : Int) = ((n - n / 1000000000 : Nat) : Int) := by
    omega
  unfold formatInt formatTime
  simp only [e1, e2, zeroFill, intStr]
  rw [if_neg (by omega), if_neg (by omega), Int.natAbs_natCast, Int.natAbs_natCast]
  rfl

theorem natStr_length_le (n w : Nat) (hw : 0 < w) (h : n < 10 ^ w) : (natStr n).length ≤ w :=
  (Nat.length_toDigits_le_iff (by omega) hw).2 h

theorem formatTime_length (sw fw t : Nat) (hsw : 0 < sw) (hfw : fw ≤ 9)
    (ht : t < 10 ^ sw * 1000000000) : (formatTime sw fw t).length = sw + 1 + fw := by
  unfold formatTime
  simp only [List.length_append, List.length_cons, List.length_take, zeroPad_length]
  have : t / 1000000000 < 10 ^ sw := by
    rw [Nat.div_lt_iff_lt_mul (by omega)]; exact ht
  have := natStr_length_le _ sw hsw this
  omega

/-! ### times of a log -/

theorem iterFrom_mem_times (x : Int × String × Nat) (l : List (Int × String × Nat)) (m : Int)
    (hp : ((x :: l).map (·.1)).Pairwise (· ≤ ·)) (h0 : 0 ≤ x.1)
    (hm : ∀ y ∈ x :: l, y.1 ≤ m) :
    ∀ y ∈ iterFrom x l, 0 ≤ y.1 ∧ y.1 ≤ m ∧ 0 ≤ y.2.1 ∧ y.2.1 ≤ m := by
  induction l generalizing x with
  | nil =>
    obtain ⟨t, e, d⟩ := x
    intro y hy
    simp only [iterFrom, List.mem_singleton] at hy
    subst hy
    have := hm (t, e, d) (by simp)
    simp only at *
    omega
  | cons z l ih =>
    obtain ⟨t, e, d⟩ := x
    intro y hy
    have hz := hm z (by simp)
    simp only [List.map_cons, List.pairwise_cons] at hp
    have hxz : t ≤ z.1 := hp.1 _ (by simp)
    simp only [iterFrom, List.mem_cons] at hy
    simp only at h0
    rcases hy with rfl | hy
    · simp only; omega
    · exact ih z (by simp only [List.map_cons, List.pairwise_cons]; exact hp.2) (by omega)
        (fun y hy => hm y (List.mem_cons_of_mem _ hy)) y hy

theorem events_times (t₀ : Int) (h : List (Op × Int)) :
    starts t₀ h = (run t₀ h).events.map (·.1) := by
  rw [← shown_eq t₀ h]; simp [starts, shown]

/-- All times shown are between 0 and the last start time. -/
theorem times_bounded (t₀ : Int) (h : List (Op × Int)) (hm : Monotone t₀ h) (m : Int)
    (hb : ∀ t ∈ starts t₀ h, t ≤ m) :
    ∀ y ∈ iter (run t₀ h), 0 ≤ y.1 ∧ y.1 ≤ m ∧ 0 ≤ y.2.1 ∧ y.2.1 ≤ m := by
  have hs := C31_starts_sorted t₀ h hm
  rw [events_times] at hs hb
  obtain ⟨k, hk⟩ := head_event h (reset t₀) ⟨[], rfl⟩
  have hk : (run t₀ h).events = (0, "log start", 0) :: k := hk
  unfold iter
  rw [hk] at hs hb ⊢
  exact iterFrom_mem_times _ k m hs (by simp) (fun y hy => hb _ (List.mem_map_of_mem hy))

theorem iter_told (t₀ : Int) (h : List (Op × Int)) :
    (iter (run t₀ h)).map (fun y => (y.2.2.1, y.2.2.2)) = told t₀ h := by
  simp [told, shown]

/-! ### longest_event -/

theorem foldl_longest (h : List (Op × Int)) : ∀ l : St,
    (∀ x ∈ l.events, x.2.1.length ≤ l.longest) → (∃ x ∈ l.events, x.2.1.length = l.longest) →
    (∀ x ∈ (h.foldl step l).events, x.2.1.length ≤ (h.foldl step l).longest) ∧
    ∃ x ∈ (h.foldl step l).events, x.2.1.length = (h.foldl step l).longest := by
  induction h with
  | nil => intro l h1 h2; exact ⟨h1, h2⟩
  | cons x h ih =>
    intro l h1 h2
    have add : ∀ (k : St) (e : String) (t : Int), k.events = l.events → k.longest = l.longest →
        (∀ x ∈ (call e t k).events, x.2.1.length ≤ (call e t k).longest) ∧
        ∃ x ∈ (call e t k).events, x.2.1.length = (call e t k).longest := by
      intro k e t e1 e2
      simp only [call, e1, e2]
      refine ⟨fun x hx => ?_, ?_⟩
      · rcases List.mem_append.1 hx with hx | hx
        · have := h1 x hx; omega
        · simp at hx; subst hx; simp only; omega
      · obtain ⟨y, hy, hy2⟩ := h2
        by_cases hle : l.longest ≤ e.length
        · exact ⟨(t - k.start, e, k.stack.length), by simp, by simp only; omega⟩
        · exact ⟨y, List.mem_append_left _ hy, by omega⟩
    obtain ⟨o, t⟩ := x
    rw [List.foldl_cons]
    cases o with
    | log e => exact ih _ (add l e t rfl rfl).1 (add l e t rfl rfl).2
    | enter s =>
      have := add l (s ++ " start") t rfl rfl
      exact ih _ this.1 this.2
    | exit =>
      simp only [step, exit]
      split
      · exact ih _ h1 h2
      · rename_i s k hs
        have := add { l with stack := k } (s ++ " end") t rfl rfl
        exact ih _ this.1 this.2
    | reset => exact ih _ (by simp [step, reset]) (by simp [step, reset])

theorem longest_spec (t₀ : Int) (h : List (Op × Int)) :
    (∀ x ∈ told t₀ h, x.1.length ≤ (run t₀ h).longest) ∧
    ∃ x ∈ told t₀ h, x.1.length = (run t₀ h).longest := by
  obtain ⟨h1, h2⟩ := foldl_longest h (reset t₀) (by simp [reset]) (by simp [reset])
  unfold told
  rw [shown_eq]
  refine ⟨fun x hx => ?_, ?_⟩
  · obtain ⟨y, hy, rfl⟩ := List.mem_map.1 hx
    exact h1 y hy
  · obtain ⟨y, hy, e⟩ := h2
    exact ⟨_, List.mem_map_of_mem hy, e⟩

/-! ## C70 -/

/-- C70: after any history and with any options, print prints the title first, alone on its line,
if there is one that is not empty; then two heading lines, if asked for; then one line for each
event shown, in order. -/
theorem C70_lines (o : Opts) (t₀ : Int) (h : List (Op × Int)) :
    ∃ title heads lines, printed o (run t₀ h) = title ++ heads ++ lines ∧
      (title = [] ↔ o.title = none ∨ o.title = some "") ∧
      (∀ s, o.title = some s → s ≠ "" → title = [s.toList]) ∧
      heads.length = (if o.headings then 2 else 0) ∧
      lines.length = (told t₀ h).length ∧
      ∀ (i : Nat) (line : List Char) (e : String × Nat), lines[i]? = some line → (told t₀ h)[i]? = some e →
        ∃ before, line = before ++ blanks (o.indent * e.2) ++ e.1.toList := by
  refine ⟨titleLines o, headingLines o (run t₀ h).longest, _, rfl, ?_, ?_, ?_, ?_, ?_⟩
  · unfold titleLines
    cases ht : o.title with
    | none => simp
    | some s =>
      simp only [Option.some.injEq, false_or, reduceCtorEq]
      by_cases hs : s.toList.isEmpty
      · rw [if_pos hs]
        simp only [true_iff]
        exact String.toList_inj.1 (by simpa using hs)
      · rw [if_neg hs]
        simp only [List.cons_ne_self, false_iff, reduceCtorEq]
        rintro rfl
        exact hs rfl
  · intro s hs hne
    unfold titleLines
    rw [hs]
    show (if s.toList.isEmpty then [] else [s.toList]) = _
    rw [if_neg]
    intro he
    exact hne (String.toList_inj.1 (by simpa using he))
  · unfold headingLines; split <;> simp
  · rw [← iter_told]; simp
  · intro i line e h1 h2
    rw [← iter_told] at h2
    simp only [List.getElem?_map, Option.map_eq_some_iff] at h1 h2
    obtain ⟨y, hy, rfl⟩ := h1
    obtain ⟨z, hz, rfl⟩ := h2
    rw [hy] at hz
    cases hz
    obtain ⟨a, b, ev, d⟩ := y
    exact ⟨_, by simp only [eventLine]; rw [show o.indentStr = blanks o.indent from rfl,
      repeatStr_blanks]⟩

/-- C100: if the clock never goes back, the times shown are under 10**seconds_width seconds, and
fractional_width is at most 9, then all event lines are laid out in the same columns, of width
seconds_width + 1 + fractional_width: the formatted start, the formatted elapsed time, and the
event indented by its depth. -/
theorem C100_columns (o : Opts) (t₀ : Int) (h : List (Op × Int)) (hm : Monotone t₀ h)
    (hsw : 0 < o.secondsWidth) (hfw : o.fractionalWidth ≤ 9)
    (hb : ∀ t ∈ starts t₀ h, t < 10 ^ o.secondsWidth * 1000000000) (i : Nat)
    (line : List Char)
    (hl : (printed o (run t₀ h))[(titleLines o).length + (if o.headings then 2 else 0) + i]? =
      some line) :
    ∃ s e ev d, (starts t₀ h)[i]? = some s ∧ (elapsed t₀ h)[i]? = some e ∧
      (told t₀ h)[i]? = some (ev, d) ∧
      InColumns o.indent (o.secondsWidth + 1 + o.fractionalWidth)
        (formatTime o.secondsWidth o.fractionalWidth s.toNat)
        (formatTime o.secondsWidth o.fractionalWidth e.toNat)
        (blanks (o.indent * d) ++ ev.toList) line := by
  have hlen : (headingLines o (run t₀ h).longest).length = (if o.headings then 2 else 0) := by
    unfold headingLines; split <;> simp
  unfold printed at hl
  rw [List.getElem?_append_right (by simp [hlen])] at hl
  rw [List.length_append, hlen, Nat.add_sub_cancel_left, List.getElem?_map,
    Option.map_eq_some_iff] at hl
  obtain ⟨⟨s, e, ev, d⟩, hy, rfl⟩ := hl
  have hmem := List.mem_of_getElem? hy
  have hbd := times_bounded t₀ h hm (10 ^ o.secondsWidth * 1000000000 - 1)
    (fun t ht => by have := hb t ht; omega) _ hmem
  have hcast : (10 : Int) ^ o.secondsWidth * 1000000000 =
      ((10 ^ o.secondsWidth * 1000000000 : Nat) : Int) := by simp
  rw [hcast] at hbd
  generalize hK : 10 ^ o.secondsWidth * 1000000000 = K at hbd
  simp only at hbd
  refine ⟨s, e, ev, d, ?_, ?_, ?_, ?_, ?_, ?_⟩
  · simp [starts, hy]
  · simp [elapsed, hy]
  · rw [← iter_told]; simp [hy]
  · exact formatTime_length _ _ _ hsw hfw (by omega)
  · exact formatTime_length _ _ _ hsw hfw (by omega)
  · simp only [eventLine]
    rw [formatInt_nonneg _ _ _ hbd.1, formatInt_nonneg _ _ _ hbd.2.2.1,
      show o.indentStr = blanks o.indent from rfl, repeatStr_blanks]
    simp only [List.append_assoc]
    rfl

/-- The i-th event line, if it is printed, is in the columns: the formatted start time and elapsed time fill
their cells. -/
def Aligned (o : Opts) (t₀ : Int) (h : List (Op × Int)) : Prop :=
  ∀ (i : Nat) (s e : Int) (ev : String) (d : Nat) (line : List Char),
    (starts t₀ h)[i]? = some s → (elapsed t₀ h)[i]? = some e → (told t₀ h)[i]? = some (ev, d) →
    (printed o (run t₀ h))[(titleLines o).length + (if o.headings then 2 else 0) + i]? = some line →
    InColumns o.indent (o.secondsWidth + 1 + o.fractionalWidth)
      (formatTime o.secondsWidth o.fractionalWidth s.toNat)
      (formatTime o.secondsWidth o.fractionalWidth e.toNat)
      (blanks (o.indent * d) ++ ev.toList) line

/-- C100: exactly when the event lines are in columns, if seconds_width is at least 1: when fractional_width is
at most 9, and all start times are under 10**seconds_width seconds. -/
theorem C100_columns_iff (o : Opts) (t₀ : Int) (h : List (Op × Int)) (hm : Monotone t₀ h)
    (hsw : 0 < o.secondsWidth) :
    Aligned o t₀ h ↔ o.fractionalWidth ≤ 9 ∧
      ∀ t ∈ starts t₀ h, t < 10 ^ o.secondsWidth * 1000000000 := by
  constructor
  · intro hA
    have hlen : (headingLines o (run t₀ h).longest).length = (if o.headings then 2 else 0) := by
      unfold headingLines; split <;> simp
    have hcell : ∀ (i : Nat) (y : Int × Int × String × Nat), (iter (run t₀ h))[i]? = some y →
        (formatTime o.secondsWidth o.fractionalWidth y.1.toNat).length =
          o.secondsWidth + 1 + o.fractionalWidth := by
      intro i y hy
      obtain ⟨s, e, ev, d⟩ := y
      refine (hA i s e ev d (eventLine o (s, e, ev, d)) ?_ ?_ ?_ ?_).1
      · simp [starts, hy]
      · simp [elapsed, hy]
      · rw [← iter_told]; simp [hy]
      · unfold printed
        rw [List.getElem?_append_right (by simp [hlen])]
        rw [List.length_append, hlen, Nat.add_sub_cancel_left, List.getElem?_map, hy]
        rfl
    have hform : ∀ t : Nat, (formatTime o.secondsWidth o.fractionalWidth t).length =
        max o.secondsWidth (natStr (t / 1000000000)).length + 1 +
          min o.fractionalWidth (max 9 (natStr (t - t / 1000000000)).length) := by
      intro t
      unfold formatTime
      simp only [List.length_append, List.length_cons, List.length_take, zeroPad_length]
      omega
    obtain ⟨k, hk⟩ := head_event h (reset t₀) ⟨[], rfl⟩
    have hk : (run t₀ h).events = (0, "log start", 0) :: k := hk
    have h0 : ∃ y : Int × Int × String × Nat, (iter (run t₀ h))[0]? = some y ∧ y.1 = 0 := by
      unfold iter
      rw [hk]
      dsimp only
      cases k with
      | nil => exact ⟨_, rfl, rfl⟩
      | cons x k => exact ⟨_, rfl, rfl⟩
    obtain ⟨y, hy, hy0⟩ := h0
    have hc := hcell 0 y hy
    rw [hy0, hform] at hc
    have hz : (natStr ((0 : Int).toNat / 1000000000)).length = 1 ∧
      (natStr ((0 : Int).toNat - (0 : Int).toNat / 1000000000)).length = 1 := by decide
    rw [hz.1, hz.2] at hc
    have hfw : o.fractionalWidth ≤ 9 := by omega
    refine ⟨hfw, ?_⟩
    intro t ht
    unfold starts at ht
    obtain ⟨z, hz1, rfl⟩ := List.mem_map.1 ht
    obtain ⟨i, hi⟩ := List.getElem?_of_mem hz1
    have hc := hcell i z hi
    rw [hform] at hc
    have hd : (natStr (z.1.toNat / 1000000000)).length ≤ o.secondsWidth := by omega
    have := (Nat.length_toDigits_le_iff (by omega) hsw).1 hd
    rw [Nat.div_lt_iff_lt_mul (by omega)] at this
    have hcast : (10 : Int) ^ o.secondsWidth * 1000000000 =
        ((10 ^ o.secondsWidth * 1000000000 : Nat) : Int) := by simp
    rw [hcast]
    generalize 10 ^ o.secondsWidth * 1000000000 = K at this ⊢
    omega
  · rintro ⟨h2, h3⟩ i s e ev d line e1 e2 e3 hl
    obtain ⟨s', e', ev', d', f1, f2, f3, f4⟩ := C100_columns o t₀ h hm hsw h2 h3 i line hl
    rw [e1] at f1; rw [e2] at f2; rw [e3] at f3
    simp only [Option.some.injEq, Prod.mk.injEq] at f1 f2 f3
    obtain ⟨g1, g2⟩ := f3
    subst f1; subst f2; subst g1; subst g2
    exact f4

/-- C70: the heading lines are laid out in the same columns as the events (the words "start",
"elapsed" and "event" begin where the cells begin), if the columns are at least as wide as
"elapsed". -/
theorem C70_headings (o : Opts) (t₀ : Int) (h : List (Op × Int)) (ho : o.headings = true)
    (hw : 7 ≤ o.secondsWidth + 1 + o.fractionalWidth) :
    ∃ cell1 cell2 line1 line2,
      (printed o (run t₀ h))[(titleLines o).length]? = some line1 ∧
      (printed o (run t₀ h))[(titleLines o).length + 1]? = some line2 ∧
      InColumns o.indent (o.secondsWidth + 1 + o.fractionalWidth)
        ("start".toList ++ blanks cell1) ("elapsed".toList ++ blanks cell2) "event".toList line1 ∧
      InColumns o.indent (o.secondsWidth + 1 + o.fractionalWidth)
        (List.replicate (o.secondsWidth + 1 + o.fractionalWidth) '-')
        (List.replicate (o.secondsWidth + 1 + o.fractionalWidth) '-')
        (List.replicate (run t₀ h).longest '-') line2 := by
  have hl : headingLines o (run t₀ h).longest =
    [o.indentStr ++ padRight o.columnWidth "start".toList ++ "  ".toList ++
        padRight o.columnWidth "elapsed".toList ++ "  ".toList ++ "event".toList,
     o.indentStr ++ List.replicate o.columnWidth '-' ++ "  ".toList ++
        List.replicate o.columnWidth '-' ++ "  ".toList ++
        List.replicate (run t₀ h).longest '-'] := by
    unfold headingLines; rw [if_pos ho]
  refine ⟨o.columnWidth - 5, o.columnWidth - 7, _, _, ?_, ?_, ⟨?_, ?_, rfl⟩, ⟨by simp, by simp, rfl⟩⟩
  · unfold printed
    rw [hl, List.append_assoc, List.getElem?_append_right (by omega)]
    simp only [Nat.sub_self]; rfl
  · unfold printed
    rw [hl, List.append_assoc, List.getElem?_append_right (by omega)]
    simp only [Nat.add_sub_cancel_left]; rfl
  · simp [blanks, Opts.columnWidth]; omega
  · simp [blanks, Opts.columnWidth]; omega

/-- C70: the row of dashes under "event" is exactly as long as the longest event logged since the
last reset (not counting its indentation). -/
theorem C70_dashes (t₀ : Int) (h : List (Op × Int)) :
    (∀ x ∈ told t₀ h, x.1.length ≤ (run t₀ h).longest) ∧
    ∃ x ∈ told t₀ h, x.1.length = (run t₀ h).longest :=
  longest_spec t₀ h

/-- C100 fails for long times and for wide fractions: with the default options, an event after 100
seconds is not in the columns; nor is any event when fractional_width is above 9. -/
theorem C100_misaligned :
    (∀ cell1 cell2 rest, ¬ InColumns 2 12 cell1 cell2 rest
        (eventLine Opts.default (100000000000, 0, "x", 0))) ∧
    (formatInt 2 12 0).length = 12 ∧ Opts.columnWidth { Opts.default with fractionalWidth := 12 } = 15 := by
  refine ⟨?_, by decide, rfl⟩
  rintro c1 c2 rest ⟨h1, h2, h3⟩
  have h4 := congrArg (fun l => (l.drop 14).take 2) h3
  have h5 : ((blanks 2 ++ c1 ++ blanks 2 ++ c2 ++ blanks 2 ++ rest).drop 14).take 2 = blanks 2 := by
    have : (blanks 2 ++ c1).length = 14 := by simp [blanks, h1]
    rw [List.append_assoc, List.append_assoc, List.append_assoc (blanks 2 ++ c1),
      ← this, List.drop_left]
    rfl
  simp only [h5] at h4
  revert h4
  decide

/-! ## Examples -/

example : (printed Opts.default (run 5 [(.log "a", 7), (.enter "s", 8), (.log "b", 9)])).map
    String.ofList =
  ["[event log]",
   "  start         elapsed       event",
   "  ------------  ------------  ---------",
   "  00.000000000  00.000000002  log start",
   "  00.000000002  00.000000001  a",
   "  00.000000003  00.000000001  s start",
   "  00.000000004  00.000000000    b"] := by decide +kernel

example : ∀ t ∈ starts 5 [(.log "a", 7), (.enter "s", 8), (.log "b", 9)],
    t < 10 ^ Opts.default.secondsWidth * 1000000000 := by decide +kernel

example : (7 : Nat) ≤ Opts.default.secondsWidth + 1 + Opts.default.fractionalWidth := by decide

end Big.Log
