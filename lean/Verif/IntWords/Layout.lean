import Verif.IntWords.Props
/-! # C153: how int_to_words words a number -/
namespace Big.IntWords

/-! ### Specification -/

/-- The quantities, and the words for them with the spaces before them (as in the code). -/
def magnitudes : List (Nat × String) :=
  [(10 ^ 2, " hundred"), (10 ^ 3, " thousand"), (10 ^ 6, " million"), (10 ^ 9, " billion"), (10 ^ 12, " trillion"),
   (10 ^ 15, " quadrillion"), (10 ^ 18, " quintillion"), (10 ^ 21, "  sextillion"), (10 ^ 24, "  septillion"),
   (10 ^ 27, "   octillion"), (10 ^ 30, "   nonillion"), (10 ^ 33, "   decillion"), (10 ^ 36, " undecillion"),
   (10 ^ 39, " duodecillion"), (10 ^ 42, " tredecillion"), (10 ^ 45, " quattuordecillion"), (10 ^ 48, " qindecillion"),
   (10 ^ 51, " sexdecillion"), (10 ^ 54, " septdecillion"), (10 ^ 57, " octodecillion"), (10 ^ 60, " novemdecillion"),
   (10 ^ 63, " vigintillion")]

/-- The cardinals and ordinals below twenty. -/
def small : List (String × String) :=
  [("zero", "zeroth"), ("one", "first"), ("two", "second"), ("three", "third"), ("four", "fourth"), ("five", "fifth"),
   ("six", "sixth"), ("seven", "seventh"), ("eight", "eighth"), ("nine", "ninth"), ("ten", "tenth"),
   ("eleven", "eleventh"), ("twelve", "twelveth"), ("thirteen", "thirteenth"), ("fourteen", "fourteenth"),
   ("fifteen", "fifteenth"), ("sixteen", "sixteenth"), ("seventeen", "seventeenth"), ("eighteen", "eighteenth"),
   ("nineteen", "nineteenth")]

/-- The cardinals and ordinals from twenty to ninety. -/
def decades : List (String × String) :=
  [("twenty", "twentieth"), ("thirty", "thirtieth"), ("forty", "fortieth"), ("fifty", "fiftieth"), ("sixty", "sixtieth"),
   ("seventy", "seventieth"), ("eighty", "eightieth"), ("ninety", "ninetieth")]

/-- The cardinal or the ordinal. -/
def pick (ordinal : Bool) (p : String × String) : List Char := (if ordinal then p.2 else p.1).toList

/-- What stands between the word for a quantity and the words for the remainder `r`. -/
def between (flowery : Bool) (r : Nat) : List Char :=
  (if flowery then (if r < 100 then " and " else ", ") else " ").toList

/-! ### Proofs -/

/-- The loop with something before it. -/
theorem loop_prefix (rec : Nat → List Char) (flowery : Bool) : ∀ (qs : List (Nat × String)) (i : Nat),
    ∃ j, (∀ A sp, loop rec flowery qs ⟨i, A, sp⟩ = ⟨i, A, sp⟩ ∧ (∀ q ∈ qs, i < q.1)) ∨
      ∃ B s, B ≠ [] ∧ ∀ A sp, loop rec flowery qs ⟨i, A, sp⟩ = ⟨j, A ++ sp :: B, s⟩
  | [], i => ⟨0, .inl fun _ _ => ⟨rfl, by simp⟩⟩
  | (t, e) :: qs, i => by
    by_cases h : i ≥ t
    · obtain ⟨j, hj | ⟨B, s, hB, hj⟩⟩ := loop_prefix rec flowery qs (i % t)
      · refine ⟨i % t, .inr ⟨[rec (i / t), e.toList], if flowery then [',', ' '] else [' '], by simp, ?_⟩⟩
        intro A sp
        rw [loop]
        dsimp only
        rw [if_pos h, (hj _ _).1]
      · refine ⟨j, .inr ⟨[rec (i / t), e.toList] ++ (if flowery then [',', ' '] else [' ']) :: B, s, by simp, ?_⟩⟩
        intro A sp
        rw [loop]
        dsimp only
        rw [if_pos h, hj]
        simp
    · obtain ⟨j, hj | ⟨B, s, hB, hj⟩⟩ := loop_prefix rec flowery qs i
      · refine ⟨j, .inl fun A sp => ?_⟩
        rw [loop]
        dsimp only
        rw [if_neg h]
        refine ⟨(hj A sp).1, ?_⟩
        intro q hq
        rcases List.mem_cons.1 hq with rfl | hq
        · exact Nat.lt_of_not_ge h
        · exact (hj A sp).2 q hq
      · refine ⟨j, .inr ⟨B, s, hB, fun A sp => ?_⟩⟩
        rw [loop]
        dsimp only
        rw [if_neg h, hj]

/-- Quantities that are too large are skipped. -/
theorem loop_skip (rec : Nat → List Char) (flowery : Bool) : ∀ (A qs : List (Nat × String)) (m : Vars), (∀ q ∈ A, m.i < q.1) →
    loop rec flowery (A ++ qs) m = loop rec flowery qs m
  | [], _, _, _ => rfl
  | (t, e) :: A, qs, m, h => by
    rw [List.cons_append, loop, if_neg (Nat.not_le.2 (h (t, e) (by simp)))]
    exact loop_skip rec flowery A qs m (fun q hq => h q (by simp [hq]))

/-- The end of `largePart`. -/
def fix (flowery : Bool) (m : Vars) : Vars :=
  if m.strings ≠ [] then { m with spacer := if flowery then " and ".toList else [' '] } else m

theorem largePart_loop (rec : Nat → List Char) (flowery : Bool) (i : Nat) :
    largePart rec flowery i = fix flowery (loop rec flowery quantitiesHigh ⟨i, [], []⟩) := by
  have hsplit : quantitiesHigh = quantitiesHigh.take 18 ++ quantitiesLow := by decide +kernel
  have hbig : ∀ q ∈ quantitiesHigh.take 18, 10 ^ 12 ≤ q.1 := by decide +kernel
  have hall : ∀ q ∈ quantitiesHigh, 100 ≤ q.1 := by decide +kernel
  unfold largePart
  show fix flowery _ = _
  congr 1
  by_cases h : i ≥ 100
  · rw [if_pos h]
    by_cases h2 : i ≥ 10 ^ 12
    · rw [if_pos h2]
    · rw [if_neg h2, hsplit, loop_skip]
      intro q hq
      have := hbig q hq
      dsimp only
      omega
  · rw [if_neg h]
    have := loop_skip rec flowery quantitiesHigh [] ⟨i, [], []⟩ (by
      intro q hq
      have := hall q hq
      dsimp only
      omega)
    rw [List.append_nil] at this
    rw [this]
    rfl

theorem unit_prefix (ordinal : Bool) (j : Nat) (B : List (List Char)) (hB : B ≠ []) (sp : List Char) :
    ∃ X, ∀ A, unitPart ordinal ⟨j, A ++ B, sp⟩ = A ++ X := by
  unfold unitPart
  dsimp only
  by_cases hj : j ≠ 0
  · refine ⟨B ++ [sp, (((firstTwenty ordinal)[j]?).getD "").toList], fun A => ?_⟩
    rw [if_pos (.inl hj), List.append_assoc]
  · have hne : ∀ A : List (List Char), ¬ (j ≠ 0 ∨ A ++ B = []) := by
      intro A h
      rcases h with h | h
      · exact hj h
      · exact hB (List.append_eq_nil_iff.1 h).2
    have hlast : ∀ A : List (List Char), (A ++ B).getLast? = B.getLast? := by
      intro A
      cases hb : B.getLast? with
      | none => exact absurd (List.getLast?_eq_none_iff.1 hb) hB
      | some x => rw [List.getLast?_append, hb]; rfl
    have hdrop : ∀ A : List (List Char), (A ++ B).dropLast = A ++ B.dropLast := fun A => List.dropLast_append_of_ne_nil hB
    refine ⟨if ordinal && B ≠ [] then
      (if (B.getLast?.bind List.getLast?) = some 'y' then B.dropLast ++ [((B.getLast?).getD []).dropLast ++ ['i', 'e']]
       else B) ++ [['t', 'h']] else B, fun A => ?_⟩
    rw [if_neg (hne A), hlast, hdrop]
    cases ordinal
    · simp
    · have h1 : (A ++ B ≠ []) := fun h => hB (List.append_eq_nil_iff.1 h).2
      simp only [Bool.true_and, decide_eq_true_eq]
      rw [if_pos h1, if_pos hB]
      split <;> simp

theorem tail_prefix (ordinal : Bool) (j : Nat) (B : List (List Char)) (hB : B ≠ []) (sp : List Char) :
    ∃ X, ∀ A, unitPart ordinal (tensPart ⟨j, A ++ B, sp⟩) = A ++ X := by
  unfold tensPart
  dsimp only
  by_cases h : j ≥ 20
  · obtain ⟨X, hX⟩ := unit_prefix ordinal (j % 10) (B ++ [sp, ((tens[j / 10]?).getD "").toList]) (by simp) ['-']
    refine ⟨X, fun A => ?_⟩
    rw [if_pos h, List.append_assoc]
    exact hX A
  · obtain ⟨X, hX⟩ := unit_prefix ordinal j B hB sp
    exact ⟨X, fun A => by rw [if_neg h]; exact hX A⟩

/-- Below a hundred, not zero. -/
theorem tail_small (ordinal : Bool) (r : Nat) (h0 : r ≠ 0) :
    ∃ Y, ∀ A sp, unitPart ordinal (tensPart ⟨r, A, sp⟩) = A ++ sp :: Y := by
  unfold tensPart
  dsimp only
  by_cases h : r ≥ 20
  · obtain ⟨X, hX⟩ := unit_prefix ordinal (r % 10) [((tens[r / 10]?).getD "").toList] (by simp) ['-']
    refine ⟨X, fun A sp => ?_⟩
    rw [if_pos h]
    have := hX (A ++ [sp])
    simpa using this
  · refine ⟨[(((firstTwenty ordinal)[r]?).getD "").toList], fun A sp => ?_⟩
    rw [if_neg h]
    unfold unitPart
    dsimp only
    rw [if_pos (.inl h0)]

theorem words_nat (i : Nat) (flowery ordinal : Bool) (h : i < 10 ^ 75) :
    intToWords i flowery ordinal = (body (cardinal flowery) flowery ordinal i).flatten := by
  unfold intToWords
  rw [if_neg (by omega)]
  dsimp only
  rw [if_neg (by omega)]
  rfl

/-- C153: a number from a hundred on is worded as follows, `M` being the largest quantity in it: the words for how many `M`
it has; the word for `M`; and unless nothing remains the words for the remainder, after " and " if it is below a hundred
and ", " otherwise, or just a space if not flowery. If ordinal, the remainder is worded as an ordinal, or "th" is added if
nothing remains. -/
theorem C153_quantities (i : Nat) (flowery ordinal : Bool) (M : Nat) (name : String) (h : i < 10 ^ 75)
    (hM : (M, name) ∈ magnitudes) (hle : M ≤ i) (hmax : ∀ q ∈ magnitudes, q.1 ≤ i → q.1 ≤ M) :
    intToWords i flowery ordinal =
      intToWords ((i / M : Nat) : Int) flowery false ++ name.toList ++
        if i % M = 0 then (if ordinal then "th".toList else [])
        else between flowery (i % M) ++ intToWords ((i % M : Nat) : Int) flowery ordinal := by
  have hsub : ∀ q ∈ magnitudes, q ∈ quantitiesHigh := by decide +kernel
  have hsup : ∀ q ∈ quantitiesHigh, q ∈ magnitudes := by decide +kernel
  have hpair : quantitiesHigh.Pairwise (fun a b => b.1 < a.1) := by decide +kernel
  have hpos : ∀ q ∈ magnitudes, 100 ≤ q.1 ∧ q.2.toList.getLast? ≠ some 'y' := by decide +kernel
  have hlow : ∀ q ∈ quantitiesHigh, 100 ≤ q.1 := by decide +kernel
  have hsplit := List.append_of_mem (hsub _ hM)
  generalize hQ : quantitiesHigh = Q at hsplit hpair hsup hlow
  obtain ⟨A, B, rfl⟩ := hsplit
  obtain ⟨hp1, hp2, hp3⟩ := List.pairwise_append.1 hpair
  obtain ⟨hM100, hy⟩ := hpos _ hM
  dsimp only at hM100 hy
  have hA : ∀ q ∈ A, i < q.1 := by
    intro q hq
    refine Nat.lt_of_not_le fun hqi => ?_
    have h1 := hmax q (hsup q (by simp [hq])) hqi
    have h2 := hp3 q hq (M, name) (by simp)
    dsimp only at h2
    omega
  have hr : i % M < M := Nat.mod_lt _ (by omega)
  have hri : i % M < i := by omega
  have hdiv : i / M < 10 ^ 75 := Nat.lt_of_le_of_lt (Nat.div_le_self _ _) h
  have hloop : ∀ m : Vars, m.i = i % M → loop (cardinal flowery) flowery (A ++ (M, name) :: B) m = loop (cardinal flowery) flowery B m := by
    intro m hm
    rw [loop_skip _ _ A _ _ (by intro q hq; have := hA q hq; omega)]
    exact loop_skip _ _ [(M, name)] B m (by intro q hq; simp only [List.mem_singleton] at hq; subst hq; dsimp only; omega)
  rw [words_nat i flowery ordinal h, words_nat _ flowery ordinal (by omega), words_nat _ flowery false hdiv, ← cardinal_eq flowery _ hdiv]
  unfold body
  rw [largePart_loop, largePart_loop, hQ, hloop ⟨i % M, [], []⟩ rfl, loop_skip _ _ A _ _ hA, loop]
  dsimp only
  rw [if_pos hle]
  generalize i % M = r at hr hri
  generalize cardinal flowery (i / M) = u
  simp only [List.nil_append]
  by_cases h0 : r = 0
  · subst h0
    rw [if_pos rfl]
    have hB0 : ∀ m : Vars, m.i = 0 → loop (cardinal flowery) flowery B m = m := by
      intro m hm
      have := loop_skip (cardinal flowery) flowery B [] m (by
        intro q hq
        have := hlow q (by simp [hq])
        omega)
      rw [List.append_nil] at this
      rw [this]; rfl
    rw [hB0 _ rfl]
    simp only [fix, tensPart, unitPart]
    cases ordinal <;> simp [hy]
  · rw [if_neg h0]
    obtain ⟨j, hj | ⟨C, s, hC, hj⟩⟩ := loop_prefix (cardinal flowery) flowery B r
    · rw [(hj _ _).1, (hj _ _).1]
      have hr100 : r < 100 := by
        refine Nat.lt_of_not_le fun hle => ?_
        have hmem : (10 ^ 2, " hundred") ∈ A ++ (M, name) :: B := by
          rw [← hQ]; decide +kernel
        rcases List.mem_append.1 hmem with hm | hm
        · have := hA _ hm
          dsimp only at this
          omega
        · rcases List.mem_cons.1 hm with hm | hm
          · have : M = 10 ^ 2 := (Prod.mk.inj hm).1.symm
            omega
          · have := (hj [] []).2 _ hm
            dsimp only at this
            omega
      obtain ⟨Y, hY⟩ := tail_small ordinal r h0
      have e1 : fix flowery ⟨r, [], []⟩ = ⟨r, [], []⟩ := by simp [fix]
      have e2 : ∀ sp, fix flowery ⟨r, [[], u, name.toList], sp⟩ =
          ⟨r, [[], u, name.toList], if flowery then " and ".toList else [' ']⟩ := by intro sp; simp [fix]
      rw [e1, e2, hY, hY]
      unfold between
      rw [if_pos hr100]
      cases flowery <;> simp
    · rw [hj, hj]
      have hr100 : ¬ r < 100 := by
        intro hlt
        have h1 := hj [] []
        have h2 := loop_skip (cardinal flowery) flowery B [] ⟨r, [], []⟩ (by
          intro q hq
          have := hlow q (by simp [hq])
          dsimp only
          omega)
        rw [List.append_nil] at h2
        rw [h2, loop] at h1
        simp at h1
      have e : ∀ A sp, fix flowery ⟨j, A ++ sp :: C, s⟩ = ⟨j, (A ++ [sp]) ++ C, if flowery then " and ".toList else [' ']⟩ := by
        intro A sp
        simp [fix]
      obtain ⟨X, hX⟩ := tail_prefix ordinal j C hC (if flowery then " and ".toList else [' '])
      rw [e, e, hX, hX]
      unfold between
      rw [if_neg hr100]
      cases flowery <;> simp

/-- C153: the numbers below a hundred. -/
theorem C153_small (flowery ordinal : Bool) :
    (∀ i (hi : i < small.length), intToWords (i : Nat) flowery ordinal = pick ordinal small[i]) ∧
    ∀ t (ht : t < decades.length),
      intToWords ((20 + 10 * t : Nat) : Int) flowery ordinal = pick ordinal decades[t] ∧
      ∀ u (hu : u < small.length), 0 < u → u < 10 → intToWords ((20 + 10 * t + u : Nat) : Int) flowery ordinal =
        pick false decades[t] ++ '-' :: pick ordinal small[u] := by
  have e1 : ∀ f o : Bool, ∀ i (hi : i < 20), intToWords (i : Nat) f o = pick o (small[i]'hi) := by decide +kernel
  have e2 : ∀ f o : Bool, ∀ t (ht : t < 8), intToWords ((20 + 10 * t : Nat) : Int) f o = pick o (decades[t]'ht) := by decide +kernel
  have e3 : ∀ f o : Bool, ∀ t (ht : t < 8), ∀ u (hu : u < 20), 0 < u → u < 10 →
      intToWords ((20 + 10 * t + u : Nat) : Int) f o = pick false (decades[t]'ht) ++ '-' :: pick o (small[u]'hu) := by decide +kernel
  exact ⟨e1 flowery ordinal, fun t ht => ⟨e2 flowery ordinal t ht, e3 flowery ordinal t ht⟩⟩

/-- C153: the words for a negative number are those for its absolute value after "negative". -/
theorem C153_negative (i : Nat) (flowery ordinal : Bool) (h0 : 0 < i) (h : i < 10 ^ 75) :
    intToWords (-(i : Int)) flowery ordinal = "negative ".toList ++ intToWords i flowery ordinal := by
  rw [words_nat i flowery ordinal h]
  unfold intToWords
  rw [if_neg (by omega)]
  dsimp only
  rw [if_pos (by omega), List.flatten_cons, Int.natAbs_neg, Int.natAbs_natCast]

/-- The words that are not "and". -/
def noAnd (ws : List (List Char)) : List (List Char) := ws.filter (· ≠ "and".toList)

theorem noAnd_append (a b : List (List Char)) : noAnd (a ++ b) = noAnd a ++ noAnd b := List.filter_append ..

/-- The largest quantity in a number. -/
theorem largest (i : Nat) (h : 100 ≤ i) : ∃ M name, (M, name) ∈ magnitudes ∧ M ≤ i ∧ ∀ q ∈ magnitudes, q.1 ≤ i → q.1 ≤ M := by
  have key : ∀ l : List (Nat × String), (∃ q ∈ l, q.1 ≤ i) → ∃ p ∈ l, p.1 ≤ i ∧ ∀ q ∈ l, q.1 ≤ i → q.1 ≤ p.1 := by
    intro l
    induction l with
    | nil => rintro ⟨q, hq, _⟩; simp at hq
    | cons a l ih =>
      intro _
      by_cases hl : ∃ q ∈ l, q.1 ≤ i
      · obtain ⟨p, hp, hpi, hmax⟩ := ih hl
        by_cases ha : a.1 ≤ i ∧ p.1 < a.1
        · refine ⟨a, by simp, ha.1, ?_⟩
          intro q hq hqi
          rcases List.mem_cons.1 hq with rfl | hq
          · exact Nat.le_refl _
          · have := hmax q hq hqi; omega
        · refine ⟨p, by simp [hp], hpi, ?_⟩
          intro q hq hqi
          rcases List.mem_cons.1 hq with rfl | hq
          · omega
          · exact hmax q hq hqi
      · rename_i hex
        obtain ⟨q, hq, hqi⟩ := hex
        rcases List.mem_cons.1 hq with rfl | hq
        · refine ⟨q, by simp, hqi, ?_⟩
          intro q' hq' hqi'
          rcases List.mem_cons.1 hq' with rfl | hq'
          · exact Nat.le_refl _
          · exact absurd ⟨q', hq', hqi'⟩ hl
        · exact absurd ⟨q, hq, hqi⟩ hl
  obtain ⟨p, hp, h1, h2⟩ := key magnitudes ⟨(10 ^ 2, " hundred"), by decide +kernel, h⟩
  exact ⟨p.1, p.2, hp, h1, h2⟩

/-- C153: flowery or not, the words are the same apart from "and" (a word being what stands between spaces, commas and
hyphens), which only occurs if flowery. -/
theorem C153_flowery (i : Int) (ordinal : Bool) (h1 : -10 ^ 75 < i) (h2 : i < 10 ^ 75) :
    (wordsOf [] (intToWords i true ordinal)).filter (· ≠ "and".toList) = wordsOf [] (intToWords i false ordinal) := by
  have names : ∀ q ∈ magnitudes, ∃ n, q.2.toList = ' ' :: n ∧ noAnd (wordsOf [] n) = wordsOf [] n ∧
      noAnd (wordsOf [] (n ++ "th".toList)) = wordsOf [] (n ++ "th".toList) := by
    have : ∀ q ∈ magnitudes, q.2.toList = ' ' :: q.2.toList.tail ∧ noAnd (wordsOf [] q.2.toList.tail) = wordsOf [] q.2.toList.tail ∧
      noAnd (wordsOf [] (q.2.toList.tail ++ "th".toList)) = wordsOf [] (q.2.toList.tail ++ "th".toList) := by decide +kernel
    exact fun q hq => ⟨_, this q hq⟩
  have low : ∀ o : Bool, ∀ i < 100, noAnd (wordsOf [] (intToWords (i : Nat) true o)) = wordsOf [] (intToWords (i : Nat) false o) := by
    decide +kernel
  have nat : ∀ (n : Nat) (o : Bool), n < 10 ^ 75 →
      noAnd (wordsOf [] (intToWords n true o)) = wordsOf [] (intToWords n false o) := by
    intro n
    induction n using Nat.strongRecOn with
    | ind n ih =>
      intro o hn
      by_cases h : n < 100
      · exact low o n h
      obtain ⟨M, name, hM, hle, hmax⟩ := largest n (Nat.le_of_not_lt h)
      have hM100 : 100 ≤ M := hmax (10 ^ 2, " hundred") (by decide +kernel) (Nat.le_of_not_lt h)
      have hr : n % M < M := Nat.mod_lt _ (by omega)
      have hd : n / M < n := Nat.div_lt_self (by omega) (by omega)
      obtain ⟨w, hw, hw1, hw2⟩ := names _ hM
      dsimp only at hw
      rw [C153_quantities n true o M name hn hM hle hmax, C153_quantities n false o M name hn hM hle hmax, hw]
      have hu := ih (n / M) hd false (by omega)
      have hrr := ih (n % M) (by omega) o (by omega)
      by_cases h0 : n % M = 0
      · rw [if_pos h0, if_pos h0]
        cases o
        · simp only [Bool.false_eq_true, if_false, List.append_nil]
          rw [wordsOf_sep _ _ ' ' _ rfl, wordsOf_sep _ _ ' ' _ rfl, noAnd_append, hu, hw1]
        · simp only [if_true, List.append_assoc, List.cons_append]
          rw [wordsOf_sep _ _ ' ' _ rfl, wordsOf_sep _ _ ' ' _ rfl, noAnd_append, hu, hw2]
      · rw [if_neg h0, if_neg h0]
        have hf : between false (n % M) = [' '] := by unfold between; simp
        rw [hf]
        simp only [List.append_assoc, List.cons_append, List.nil_append]
        rw [wordsOf_sep _ _ ' ' _ rfl, wordsOf_sep _ _ ' ' _ rfl, noAnd_append, hu, wordsOf_sep _ _ ' ' (intToWords _ false o) rfl]
        congr 1
        rw [← hw1, ← hrr]
        by_cases h100 : n % M < 100
        · have ht : between true (n % M) = ' ' :: ("and".toList ++ [' ']) := by
            unfold between; rw [if_pos rfl, if_pos h100]; rfl
          rw [ht]
          simp only [List.cons_append, List.append_assoc, List.nil_append]
          rw [wordsOf_sep _ _ ' ' _ rfl, wordsOf_sep _ _ ' ' _ rfl, noAnd_append, noAnd_append]
          have : noAnd (wordsOf [] "and".toList) = [] := by decide +kernel
          rw [this]
          rfl
        · have ht : between true (n % M) = ',' :: [' '] := by
            unfold between; rw [if_pos rfl, if_neg h100]; rfl
          rw [ht]
          simp only [List.cons_append, List.nil_append]
          rw [wordsOf_sep _ _ ',' _ rfl, noAnd_append]
          have : ∀ x, wordsOf [] (' ' :: x) = wordsOf [] x := by
            intro x
            have := wordsOf_sep [] [] ' ' x rfl
            simpa [wordsOf] using this
          rw [this]
  show noAnd _ = _
  by_cases hi : 0 ≤ i
  · obtain ⟨n, rfl⟩ := Int.eq_ofNat_of_zero_le hi
    exact nat n ordinal (by omega)
  · obtain ⟨n, rfl⟩ : ∃ n : Nat, i = -(n : Int) := ⟨i.natAbs, by omega⟩
    rw [C153_negative n true ordinal (by omega) (by omega), C153_negative n false ordinal (by omega) (by omega)]
    have : "negative ".toList = "negative".toList ++ [' '] := by decide
    rw [this]
    simp only [List.append_assoc, List.cons_append, List.nil_append]
    rw [wordsOf_sep _ _ ' ' _ rfl, wordsOf_sep _ _ ' ' _ rfl, noAnd_append, nat n ordinal (by omega)]
    congr 1

/-- 1234567 has one million, and 234567 remain. -/
example : (10 ^ 6, " million") ∈ magnitudes ∧ 10 ^ 6 ≤ 1234567 ∧ (∀ q ∈ magnitudes, q.1 ≤ 1234567 → q.1 ≤ 10 ^ 6) ∧
    intToWords 1234567 true true = "one".toList ++ " million".toList ++
      (", ".toList ++ "two hundred and thirty-four thousand, five hundred and sixty-seventh".toList) ∧
    intToWords 234567 true true = "two hundred and thirty-four thousand, five hundred and sixty-seventh".toList := by
  decide +kernel

end Big.IntWords
