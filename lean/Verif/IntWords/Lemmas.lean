import Verif.IntWords.Model
/-! # Lemmas on int_to_words -/
namespace Big.IntWords

/-- The words that are read. -/
def toks (s : List Char) : List (List Char) := (wordsOf [] s).filter (· ≠ "and".toList)

theorem wordsOf_sep (w a : List Char) (c : Char) (b : List Char) (hc : isSep c = true) :
    wordsOf w (a ++ c :: b) = wordsOf w a ++ wordsOf [] b := by
  induction a generalizing w with
  | nil => simp [wordsOf, hc]
  | cons d a ih =>
    simp only [List.cons_append, wordsOf]
    split
    · rw [ih, List.append_assoc]
    · exact ih _

theorem toks_sep (a : List Char) (c : Char) (b : List Char) (hc : isSep c = true) :
    toks (a ++ c :: b) = toks a ++ toks b := by
  unfold toks; rw [wordsOf_sep _ _ _ _ hc, List.filter_append]

theorem toks_nil : toks [] = [] := rfl

/-- Reading cardinals only. -/
def cardFold : Nat → List (List Char) → Option Nat
  | v, [] => some v
  | v, w :: ws => (asCardinal w).bind (fun m => cardFold (m.apply v) ws)

theorem cardFold_append (v : Nat) (a b : List (List Char)) :
    cardFold v (a ++ b) = (cardFold v a).bind (fun v' => cardFold v' b) := by
  induction a generalizing v with
  | nil => rfl
  | cons w a ih =>
    simp only [List.cons_append, cardFold]
    cases asCardinal w with
    | none => rfl
    | some m => simp [ih]

theorem readWords_append (ordinal : Bool) (v : Nat) (a : List (List Char)) (w : List Char) :
    readWords ordinal v (a ++ [w]) =
      (cardFold v a).bind (fun v' => (if ordinal then asOrdinal w else asCardinal w).map (·.apply v')) := by
  induction a generalizing v with
  | nil => rfl
  | cons x a ih =>
    cases h : a ++ [w] with
    | nil => simp at h
    | cons y l =>
      rw [List.cons_append, h, readWords, cardFold, ← h]
      cases asCardinal x with
      | none => rfl
      | some m => simp [ih]

/-- The word of an entry of quantities. -/
def nameOf (e : String) : List Char := e.toList.dropWhile (· = ' ')

/-- What the entries of quantities have in common. -/
def EntryOk (q : Nat × String) : Prop :=
  q.2.toList.head? = some ' ' ∧ toks q.2.toList.tail = [nameOf q.2] ∧
  toks (q.2.toList.tail ++ ['t', 'h']) = [nameOf q.2 ++ ['t', 'h']] ∧
  asCardinal (nameOf q.2) = some (.times q.1) ∧ asOrdinal (nameOf q.2 ++ ['t', 'h']) = some (.times q.1) ∧
  q.2.toList.getLast? ≠ some 'y'

instance (q : Nat × String) : Decidable (EntryOk q) := by unfold EntryOk; infer_instance

theorem high_ok : ∀ q ∈ quantitiesHigh, EntryOk q := by decide +kernel

theorem low_ok : ∀ q ∈ quantitiesLow, EntryOk q := by decide +kernel

/-- Thresholds that follow each other. -/
def Chain (U : Nat) : Nat → List (Nat × String) → Prop
  | _, [] => True
  | B, q :: qs => q.1 ∣ B ∧ B ≤ q.1 * q.1 ∧ B ≤ q.1 * U ∧ 100 ∣ q.1 ∧ 0 < q.1 ∧
      (∀ q' ∈ qs.head?, q.1 ≤ 1000 * q'.1) ∧ Chain U q.1 qs

/-- Chain can be decided. -/
def chainDec (U : Nat) : ∀ (B : Nat) (qs : List (Nat × String)), Decidable (Chain U B qs)
  | _, [] => isTrue trivial
  | B, q :: qs => by
    have := chainDec U q.1 qs
    unfold Chain
    have : Decidable (∀ q' ∈ qs.head?, q.1 ≤ 1000 * q'.1) := by
      cases qs with
      | nil => exact isTrue (by simp)
      | cons q' qs => exact decidable_of_iff (q.1 ≤ 1000 * q'.1) (by simp)
    infer_instance

instance (U B : Nat) (qs : List (Nat × String)) : Decidable (Chain U B qs) := chainDec U B qs

theorem high_chain : Chain (10 ^ 12) (10 ^ 75) quantitiesHigh := by decide +kernel

theorem low_chain : Chain 1000 (10 ^ 12) quantitiesLow := by decide +kernel

/-- The last threshold. -/
def lastBound : Nat → List (Nat × String) → Nat
  | B, [] => B
  | _, q :: qs => lastBound q.1 qs

/-- A recursive call gives the right words. -/
def GoodAt (rec : Nat → List Char) (u : Nat) : Prop :=
  ∀ v, 100 ∣ v → (1000 ≤ u → v = 0) → cardFold v (toks (rec u)) = some (v + u)

/-- The strings so far say `v`, when reading starts with `V`; if there are any the last one is the name of a power of ten. -/
def Says (V : Nat) (m : Vars) (v : Nat) : Prop :=
  (m.strings = [] ∧ m.spacer = [] ∧ v = V) ∨
  (∃ init q v0, m.strings = init ++ [q.2.toList] ∧ EntryOk q ∧ cardFold V (toks init.flatten) = some v0 ∧
    (Meaning.times q.1).apply v0 = v ∧ ∀ b, toks (m.strings.flatten ++ m.spacer ++ b) = toks m.strings.flatten ++ toks b)

theorem entry_toks {q : Nat × String} (h : EntryOk q) (a : List Char) :
    toks (a ++ q.2.toList) = toks a ++ [nameOf q.2] := by
  obtain ⟨h1, h2, -⟩ := h
  cases hq : q.2.toList with
  | nil => rw [hq] at h1; simp at h1
  | cons c e =>
    rw [hq] at h1 h2
    simp only [List.head?_cons, Option.some.injEq] at h1
    rw [toks_sep _ _ _ (by subst h1; rfl)]
    rw [List.tail_cons] at h2
    rw [h2]

theorem entry_toks_th {q : Nat × String} (h : EntryOk q) (a : List Char) :
    toks (a ++ q.2.toList ++ ['t', 'h']) = toks a ++ [nameOf q.2 ++ ['t', 'h']] := by
  obtain ⟨h1, -, h2, -⟩ := h
  cases hq : q.2.toList with
  | nil => rw [hq] at h1; simp at h1
  | cons c e =>
    rw [hq] at h1 h2
    simp only [List.head?_cons, Option.some.injEq] at h1
    rw [List.append_assoc, List.cons_append, toks_sep _ _ _ (by subst h1; rfl)]
    rw [List.tail_cons] at h2
    rw [h2]

theorem Says.cardFold {V : Nat} {m : Vars} {v : Nat} (h : Says V m v) : cardFold V (toks m.strings.flatten) = some v := by
  rcases h with ⟨h1, -, rfl⟩ | ⟨init, q, v0, h1, h2, h3, h4, -⟩
  · rw [h1]; rfl
  · rw [h1, List.flatten_append, List.flatten_singleton, entry_toks h2, cardFold_append, h3]
    simp only [Option.bind_some, IntWords.cardFold]
    rw [h2.2.2.2.1]
    simp [h4]

theorem Says.toks {V : Nat} {m : Vars} {v : Nat} (h : Says V m v) (b : List Char) :
    toks (m.strings.flatten ++ m.spacer ++ b) = toks m.strings.flatten ++ toks b := by
  rcases h with ⟨h1, h2, rfl⟩ | ⟨init, q, v0, h1, h2, h3, h4, h5⟩
  · rw [h1, h2]; rfl
  · exact h5 b

/-- The loop over quantities. -/
theorem loop_says (rec : Nat → List Char) (flowery : Bool) (U N : Nat)
    (hrec : ∀ u, u ≤ N / 100 → u < U → GoodAt rec u) (qs : List (Nat × String)) :
    ∀ (B : Nat) (m : Vars) (v : Nat), Chain U B qs → (∀ q ∈ qs, EntryOk q) → Says 0 m v → v + m.i = N → m.i < B →
      B ∣ v → 100 ∣ v → (v = 0 ∨ ∀ q ∈ qs.head?, B ≤ 1000 * q.1) →
      ∃ v', Says 0 (loop rec flowery qs m) v' ∧ v' + (loop rec flowery qs m).i = N ∧
        (loop rec flowery qs m).i < lastBound B qs ∧ 100 ∣ v' := by
  induction qs with
  | nil => intro B m v _ _ h1 h2 h3 h4 h5 _; exact ⟨v, h1, h2, h3, h5⟩
  | cons q qs ih =>
    intro B m v hch hq hs hN hi hB h100 hfirst
    obtain ⟨c1, c2, c3, c4, c5, c6, c7⟩ := hch
    have hqv : q.1 ∣ v := Nat.dvd_trans c1 hB
    rw [loop, lastBound]
    by_cases hm : m.i ≥ q.1
    · rw [if_pos hm]
      have hu : m.i / q.1 * q.1 + m.i % q.1 = m.i := by rw [Nat.mul_comm]; exact Nat.div_add_mod _ _
      have hlt : m.i / q.1 < q.1 := Nat.div_lt_of_lt_mul (by omega)
      have hltU : m.i / q.1 < U := Nat.div_lt_of_lt_mul (by omega)
      have hle : m.i / q.1 ≤ N / 100 :=
        Nat.le_trans (Nat.div_le_div_left (Nat.le_of_dvd c5 c4) (by omega)) (Nat.div_le_div_right (by omega))
      have hgood := hrec _ hle hltU v h100 (by
        intro h
        rcases hfirst with h0 | h0
        · exact h0
        · have := h0 q (by simp)
          have := Nat.div_lt_of_lt_mul (m := m.i) (n := q.1) (k := 1000) (by omega)
          omega)
      refine ih q.1 _ (v + m.i / q.1 * q.1) c7 (fun q' h => hq q' (by simp [h])) ?_ ?_ ?_ ?_ ?_ (.inr c6)
      · right
        refine ⟨m.strings ++ [m.spacer, rec (m.i / q.1)], q, v + m.i / q.1, by simp, hq q (by simp), ?_, ?_, ?_⟩
        · have : (m.strings ++ [m.spacer, rec (m.i / q.1)]).flatten = m.strings.flatten ++ m.spacer ++ rec (m.i / q.1) := by
            simp
          rw [this, hs.toks, cardFold_append, hs.cardFold]
          exact hgood
        · obtain ⟨k, hk⟩ := hqv
          simp only [Meaning.apply]
          rw [hk, Nat.mul_add_mod, Nat.mod_eq_of_lt hlt]
          omega
        · intro b
          cases flowery
          · have := toks_sep (m.strings ++ [m.spacer, rec (m.i / q.1), q.2.toList]).flatten ' ' b rfl
            simpa using this
          · have := toks_sep (m.strings ++ [m.spacer, rec (m.i / q.1), q.2.toList]).flatten ',' (' ' :: b) rfl
            rw [show toks (' ' :: b) = toks b from toks_sep [] ' ' b rfl] at this
            simpa using this
      · dsimp only; omega
      · exact Nat.mod_lt _ c5
      · exact (Nat.dvd_add_right hqv).2 (Nat.dvd_mul_left ..)
      · exact (Nat.dvd_add_right h100).2 (Nat.dvd_trans c4 (Nat.dvd_mul_left ..))
    · rw [if_neg hm]
      exact ih q.1 m v c7 (fun q' h => hq q' (by simp [h])) hs hN (by omega) hqv h100 (.inr c6)

/-- The part before the tens. -/
theorem largePart_says (rec : Nat → List Char) (flowery : Bool) (N : Nat) (hN : N < 10 ^ 75)
    (hrec : 100 ≤ N → ∀ u, u ≤ N / 100 → u < (if N < 10 ^ 12 then 1000 else 10 ^ 12) → GoodAt rec u) :
    ∃ v, Says 0 (largePart rec flowery N) v ∧ v + (largePart rec flowery N).i = N ∧ (largePart rec flowery N).i < 100 ∧
      100 ∣ v := by
  have hpre : ∃ v, Says 0 (if N ≥ 100 then loop rec flowery (if N ≥ 10 ^ 12 then quantitiesHigh else quantitiesLow) ⟨N, [], []⟩
        else ⟨N, [], []⟩) v ∧
      v + (if N ≥ 100 then loop rec flowery (if N ≥ 10 ^ 12 then quantitiesHigh else quantitiesLow) ⟨N, [], []⟩
        else ⟨N, [], []⟩).i = N ∧
      (if N ≥ 100 then loop rec flowery (if N ≥ 10 ^ 12 then quantitiesHigh else quantitiesLow) ⟨N, [], []⟩
        else ⟨N, [], []⟩).i < 100 ∧ 100 ∣ v := by
    by_cases h : N ≥ 100
    · rw [if_pos h]
      have hrec := hrec h
      by_cases h2 : N ≥ 10 ^ 12
      · rw [if_pos h2]
        rw [if_neg (by omega)] at hrec
        exact loop_says rec flowery (10 ^ 12) N hrec quantitiesHigh (10 ^ 75) ⟨N, [], []⟩ 0 high_chain high_ok
          (.inl ⟨rfl, rfl, rfl⟩) (by simp) hN (by simp) (by simp) (.inl rfl)
      · rw [if_neg h2]
        rw [if_pos (by omega)] at hrec
        exact loop_says rec flowery 1000 N hrec quantitiesLow (10 ^ 12) ⟨N, [], []⟩ 0 low_chain low_ok
          (.inl ⟨rfl, rfl, rfl⟩) (by simp) (by show N < 10 ^ 12; omega) (by simp) (by simp) (.inl rfl)
    · rw [if_neg h]
      exact ⟨0, .inl ⟨rfl, rfl, rfl⟩, by simp, by dsimp only; omega, by simp⟩
  unfold largePart
  generalize (if N ≥ 100 then loop rec flowery (if N ≥ 10 ^ 12 then quantitiesHigh else quantitiesLow) ⟨N, [], []⟩
        else ⟨N, [], []⟩ : Vars) = m at hpre
  obtain ⟨v, h1, h2, h3, h4⟩ := hpre
  dsimp only
  by_cases hs : m.strings = []
  · rw [if_neg (by simpa using hs)]; exact ⟨v, h1, h2, h3, h4⟩
  · rw [if_pos hs]
    refine ⟨v, ?_, h2, h3, h4⟩
    rcases h1 with ⟨g1, -⟩ | ⟨init, q, v0, g1, g2, g3, g4, g5⟩
    · exact absurd g1 hs
    · refine .inr ⟨init, q, v0, g1, g2, g3, g4, ?_⟩
      intro b
      cases flowery
      · have := toks_sep m.strings.flatten ' ' b rfl
        simpa using this
      · have h1 := toks_sep m.strings.flatten ' ' ('a' :: 'n' :: 'd' :: ' ' :: b) rfl
        have h2 := toks_sep ['a', 'n', 'd'] ' ' b rfl
        rw [show toks ['a', 'n', 'd'] = [] by decide] at h2
        rw [show 'a' :: 'n' :: 'd' :: ' ' :: b = ['a', 'n', 'd'] ++ ' ' :: b from rfl, h2, List.nil_append] at h1
        rw [← h1]
        simp

/-- The words for less than twenty. -/
theorem unit_ok (ordinal : Bool) : ∀ i < 20, toks (((firstTwenty ordinal)[i]?).getD "").toList = [(((firstTwenty ordinal)[i]?).getD "").toList] ∧
    (if ordinal then asOrdinal (((firstTwenty ordinal)[i]?).getD "").toList
     else asCardinal (((firstTwenty ordinal)[i]?).getD "").toList) = some (.add i) := by
  cases ordinal <;> decide +kernel

/-- The words for the tens. -/
theorem tens_ok : ∀ t < 10, 2 ≤ t → toks ((tens[t]?).getD "").toList = [((tens[t]?).getD "").toList] ∧
    asCardinal ((tens[t]?).getD "").toList = some (.add (10 * t)) ∧
    (((tens[t]?).getD "").toList).getLast? = some 'y' ∧
    toks ((((tens[t]?).getD "").toList).dropLast ++ ['i', 'e'] ++ ['t', 'h']) =
      [(((tens[t]?).getD "").toList).dropLast ++ ['i', 'e'] ++ ['t', 'h']] ∧
    asOrdinal ((((tens[t]?).getD "").toList).dropLast ++ ['i', 'e'] ++ ['t', 'h']) = some (.add (10 * t)) := by
  decide +kernel

/-- The tens and the end, read. -/
theorem tail_reads (ordinal : Bool) (m : Vars) (V v N : Nat) (hs : Says V m v) (h2 : v + m.i = N) (h3 : m.i < 100) :
    ∃ ws w v0 M, toks (unitPart ordinal (tensPart m)).flatten = ws ++ [w] ∧ cardFold V ws = some v0 ∧
      (if ordinal then asOrdinal w else asCardinal w) = some M ∧ M.apply v0 = N := by
  unfold tensPart
  by_cases h20 : m.i ≥ 20
  · rw [if_pos h20]
    obtain ⟨t1, t2, t3, t4, t5⟩ := tens_ok (m.i / 10) (by omega) (by omega)
    generalize ht : ((tens[m.i / 10]?).getD "").toList = tw at *
    have hfl : (m.strings ++ [m.spacer, tw]).flatten = m.strings.flatten ++ m.spacer ++ tw := by simp
    unfold unitPart
    dsimp only
    by_cases h0 : m.i % 10 = 0
    · rw [if_neg (by simp [h0])]
      cases ordinal with
      | true =>
        rw [if_pos (by simp)]
        have hl : ((m.strings ++ [m.spacer, tw]).getLast?.bind List.getLast?) = some 'y' := by
          rw [show m.strings ++ [m.spacer, tw] = (m.strings ++ [m.spacer]) ++ [tw] by simp, List.getLast?_append]
          simpa using t3
        rw [if_pos hl]
        refine ⟨toks m.strings.flatten, tw.dropLast ++ ['i', 'e'] ++ ['t', 'h'], v, .add (10 * (m.i / 10)), ?_, hs.cardFold, ?_, ?_⟩
        · have : ((m.strings ++ [m.spacer, tw]).dropLast ++ [((m.strings ++ [m.spacer, tw]).getLast?.getD []).dropLast ++ ['i', 'e']] ++
              [['t', 'h']]).flatten = m.strings.flatten ++ m.spacer ++ (tw.dropLast ++ ['i', 'e'] ++ ['t', 'h']) := by
            rw [show m.strings ++ [m.spacer, tw] = (m.strings ++ [m.spacer]) ++ [tw] by simp]
            simp
          rw [this, hs.toks, t4]
        · simpa using t5
        · simp only [Meaning.apply]; omega
      | false =>
        rw [if_neg (by simp), hfl]
        refine ⟨toks m.strings.flatten, tw, v, .add (10 * (m.i / 10)), ?_, hs.cardFold, ?_, ?_⟩
        · rw [hs.toks, t1]
        · simpa using t2
        · simp only [Meaning.apply]; omega
    · rw [if_pos (.inl h0)]
      obtain ⟨u1, u2⟩ := unit_ok ordinal (m.i % 10) (by omega)
      generalize hu : (((firstTwenty ordinal)[m.i % 10]?).getD "").toList = uw at *
      refine ⟨toks m.strings.flatten ++ [tw], uw, v + 10 * (m.i / 10), .add (m.i % 10), ?_, ?_, u2, ?_⟩
      · have : (m.strings ++ [m.spacer, tw] ++ [['-'], uw]).flatten = (m.strings.flatten ++ m.spacer ++ tw) ++ '-' :: uw := by simp
        rw [this, toks_sep _ _ _ rfl, hs.toks, t1, u1]
      · rw [cardFold_append, hs.cardFold]
        simp [cardFold, t2, Meaning.apply]
      · simp only [Meaning.apply]; omega
  · rw [if_neg h20]
    unfold unitPart
    by_cases h0 : m.i ≠ 0 ∨ m.strings = []
    · rw [if_pos h0]
      obtain ⟨u1, u2⟩ := unit_ok ordinal m.i (by omega)
      generalize hu : (((firstTwenty ordinal)[m.i]?).getD "").toList = uw at *
      refine ⟨toks m.strings.flatten, uw, v, .add m.i, ?_, hs.cardFold, u2, h2⟩
      have : (m.strings ++ [m.spacer, uw]).flatten = m.strings.flatten ++ m.spacer ++ uw := by simp
      rw [this, hs.toks, u1]
    · rw [if_neg h0]
      simp only [not_or, ne_eq, Decidable.not_not] at h0
      rcases hs with ⟨g1, -⟩ | ⟨init, q, v0, g1, g2, g3, g4, -⟩
      · exact absurd g1 h0.2
      · have hN' : (Meaning.times q.1).apply v0 = N := by rw [g4]; omega
        cases ordinal with
        | true =>
          rw [if_pos (by simp [h0.2]), g1]
          have hl : ((init ++ [q.2.toList]).getLast?.bind List.getLast?) ≠ some 'y' := by
            rw [List.getLast?_append]
            simpa using g2.2.2.2.2.2
          rw [if_neg hl]
          refine ⟨toks init.flatten, nameOf q.2 ++ ['t', 'h'], v0, .times q.1, ?_, g3, ?_, hN'⟩
          · have : (init ++ [q.2.toList] ++ [['t', 'h']]).flatten = init.flatten ++ q.2.toList ++ ['t', 'h'] := by simp
            rw [this]; exact entry_toks_th g2 _
          · simpa using g2.2.2.2.2.1
        | false =>
          rw [if_neg (by simp), g1]
          refine ⟨toks init.flatten, nameOf q.2, v0, .times q.1, ?_, g3, ?_, hN'⟩
          · rw [List.flatten_append, List.flatten_singleton]; exact entry_toks g2 _
          · simpa using g2.2.2.2.1

/-- What int_to_words returns, read. -/
theorem body_reads (rec : Nat → List Char) (flowery ordinal : Bool) (N : Nat) (hN : N < 10 ^ 75)
    (hrec : 100 ≤ N → ∀ u, u ≤ N / 100 → u < (if N < 10 ^ 12 then 1000 else 10 ^ 12) → GoodAt rec u) :
    ∃ ws w v0 M, toks (body rec flowery ordinal N).flatten = ws ++ [w] ∧ cardFold 0 ws = some v0 ∧
      (if ordinal then asOrdinal w else asCardinal w) = some M ∧ M.apply v0 = N := by
  obtain ⟨v, hs, h2, h3, -⟩ := largePart_says rec flowery N hN hrec
  exact tail_reads ordinal _ 0 v N hs h2 h3

/-- Below a thousand: reading may start with any multiple of a hundred. -/
theorem body_reads_low (rec : Nat → List Char) (flowery ordinal : Bool) (N V : Nat) (hN : N < 1000) (hV : 100 ∣ V)
    (hrec : 100 ≤ N → GoodAt rec (N / 100)) :
    ∃ ws w v0 M, toks (body rec flowery ordinal N).flatten = ws ++ [w] ∧ cardFold V ws = some v0 ∧
      (if ordinal then asOrdinal w else asCardinal w) = some M ∧ M.apply v0 = V + N := by
  by_cases h : 100 ≤ N
  · have hl : largePart rec flowery N = ⟨N % 100, [[], rec (N / 100), " hundred".toList],
        if flowery then " and ".toList else [' ']⟩ := by
      unfold largePart
      have e1 : ¬ N ≥ 10 ^ 12 := by omega
      have e2 : ¬ N ≥ 10 ^ 9 := by omega
      have e3 : ¬ N ≥ 10 ^ 6 := by omega
      have e4 : ¬ N ≥ 10 ^ 3 := by omega
      have e5 : N ≥ 10 ^ 2 := by omega
      have e6 : N ≥ 100 := h
      simp only [quantitiesLow, loop, if_neg e1, if_neg e2, if_neg e3, if_neg e4, if_pos e5, if_pos e6]
      simp
    unfold body
    rw [hl]
    refine tail_reads ordinal _ V (V + N / 100 * 100) (V + N) ?_ (by dsimp only; omega) (by dsimp only; omega)
    right
    refine ⟨[[], rec (N / 100)], (10 ^ 2, " hundred"), V + N / 100, rfl, low_ok _ (by simp [quantitiesLow]), ?_, ?_, ?_⟩
    · have := hrec h V hV (by omega)
      simpa using this
    · obtain ⟨k, hk⟩ := hV
      simp only [Meaning.apply]
      omega
    · intro b
      generalize ([[], rec (N / 100), " hundred".toList] : List (List Char)).flatten = S
      cases flowery
      · have := toks_sep S ' ' b rfl
        simpa using this
      · have h1 := toks_sep S ' ' ('a' :: 'n' :: 'd' :: ' ' :: b) rfl
        have h2 := toks_sep ['a', 'n', 'd'] ' ' b rfl
        rw [show toks ['a', 'n', 'd'] = [] by decide] at h2
        rw [show 'a' :: 'n' :: 'd' :: ' ' :: b = ['a', 'n', 'd'] ++ ' ' :: b from rfl, h2, List.nil_append] at h1
        rw [← h1]
        simp
  · have hl : largePart rec flowery N = ⟨N, [], []⟩ := by
      unfold largePart
      have e6 : ¬ N ≥ 100 := h
      simp only [if_neg e6]
      simp
    unfold body
    rw [hl]
    exact tail_reads ordinal _ V V (V + N) (.inl ⟨rfl, rfl, rfl⟩) rfl (by dsimp only; omega)

/-! ### Depth of the recursion -/

/-- The calls of `rec` in the loop. -/
theorem loop_congr (rec rec' : Nat → List Char) (flowery : Bool) (U N : Nat)
    (hrec : ∀ u, u ≤ N / 100 → u < U → rec u = rec' u) (qs : List (Nat × String)) :
    ∀ (B : Nat) (m : Vars), Chain U B qs → m.i ≤ N → m.i < B → loop rec flowery qs m = loop rec' flowery qs m := by
  induction qs with
  | nil => intro _ _ _ _ _; rfl
  | cons q qs ih =>
    intro B m hch hN hi
    obtain ⟨c1, c2, c3, c4, c5, c6, c7⟩ := hch
    rw [loop, loop]
    by_cases hm : m.i ≥ q.1
    · rw [if_pos hm, if_pos hm]
      have hltU : m.i / q.1 < U := Nat.div_lt_of_lt_mul (by omega)
      have hle : m.i / q.1 ≤ N / 100 :=
        Nat.le_trans (Nat.div_le_div_left (Nat.le_of_dvd c5 c4) (by omega)) (Nat.div_le_div_right (by omega))
      rw [hrec _ hle hltU]
      exact ih q.1 _ c7 (by have := Nat.mod_le m.i q.1; dsimp only; omega) (Nat.mod_lt _ c5)
    · rw [if_neg hm, if_neg hm]
      exact ih q.1 m c7 hN (by omega)

theorem body_congr (rec rec' : Nat → List Char) (flowery ordinal : Bool) (N : Nat) (hN : N < 10 ^ 75)
    (hrec : 100 ≤ N → ∀ u, u ≤ N / 100 → u < (if N < 10 ^ 12 then 1000 else 10 ^ 12) → rec u = rec' u) :
    body rec flowery ordinal N = body rec' flowery ordinal N := by
  have : largePart rec flowery N = largePart rec' flowery N := by
    unfold largePart
    by_cases h : N ≥ 100
    · rw [if_pos h, if_pos h]
      have hrec := hrec h
      by_cases h2 : N ≥ 10 ^ 12
      · rw [if_pos h2]
        rw [if_neg (by omega)] at hrec
        rw [loop_congr rec rec' flowery (10 ^ 12) N hrec quantitiesHigh (10 ^ 75) ⟨N, [], []⟩ high_chain (Nat.le_refl _) hN]
      · rw [if_neg h2]
        rw [if_pos (by omega)] at hrec
        rw [loop_congr rec rec' flowery 1000 N hrec quantitiesLow (10 ^ 12) ⟨N, [], []⟩ low_chain (Nat.le_refl _) (by show N < 10 ^ 12; omega)]
    · rw [if_neg h, if_neg h]
  unfold body; rw [this]

/-- Three levels of recursion are enough. -/
theorem cardinalN_stable (flowery : Bool) : ∀ d u, (1 ≤ d ∧ u < 100) ∨ (2 ≤ d ∧ u < 1000) ∨ (3 ≤ d ∧ u < 10 ^ 12) ∨ (4 ≤ d ∧ u < 10 ^ 75) →
    cardinalN flowery (d + 1) u = cardinalN flowery d u := by
  intro d
  induction d with
  | zero => intro u h; omega
  | succ d ih =>
    intro u h
    rw [cardinalN, cardinalN]
    rw [body_congr _ (cardinalN flowery d) flowery false u (by omega)]
    intro h100 w h1 h2
    by_cases hu : u < 10 ^ 12
    · rw [if_pos hu] at h2
      apply ih; omega
    · rw [if_neg hu] at h2
      apply ih; omega

/-- The recursion: what a call returns is the body with the same function for its calls. -/
theorem cardinal_eq (flowery : Bool) (u : Nat) (hu : u < 10 ^ 75) :
    cardinal flowery u = (body (cardinal flowery) flowery false u).flatten := by
  have := cardinalN_stable flowery 4 u (by omega)
  unfold cardinal
  rw [← this]
  rfl

/-- The words of a recursive call say its argument. -/
theorem cardinal_good (flowery : Bool) (u : Nat) (hu : u < 10 ^ 12) : GoodAt (cardinal flowery) u := by
  induction u using Nat.strongRecOn with
  | ind u ih =>
    intro v hv h0
    rw [cardinal_eq flowery u (by omega)]
    have fin : ∀ (ws : List (List Char)) (w : List Char) (v0 : Nat) (M : Meaning) (x : Nat), cardFold x ws = some v0 →
        (if false then asOrdinal w else asCardinal w) = some M → cardFold x (ws ++ [w]) = some (M.apply v0) := by
      intro ws w v0 M x h1 h2
      rw [cardFold_append, h1]
      simp only [Bool.false_eq_true, if_false] at h2
      simp [cardFold, h2]
    by_cases hk : 1000 ≤ u
    · rw [h0 hk]
      obtain ⟨ws, w, v0, M, h1, h2, h3, h4⟩ := body_reads (cardinal flowery) flowery false u (by omega)
        (fun h w h1 _ => ih w (by omega) (by omega))
      rw [h1, fin ws w v0 M 0 h2 (by simpa using h3), h4]; simp
    · obtain ⟨ws, w, v0, M, h1, h2, h3, h4⟩ := body_reads_low (cardinal flowery) flowery false u v (by omega) hv
        (fun h => ih (u / 100) (by omega) (by omega))
      rw [h1, fin ws w v0 M v h2 (by simpa using h3), h4]

end Big.IntWords
