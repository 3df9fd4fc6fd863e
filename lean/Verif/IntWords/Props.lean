import Verif.IntWords.Lemmas
/-!
# C55: int_to_words

The specification is the reader at the end of Verif/IntWords/Model.lean: it knows what the English numerals
mean (`cardinals`, `ordinals`, as they are spelled in the code) and how they combine, and nothing of how
int_to_words works.
-/
namespace Big.IntWords

/-- C55: for every integer between -10**75 and 10**75, the words say that integer, as an ordinal if `ordinal`,
whether flowery or not. -/
theorem C55_reads (i : Int) (flowery ordinal : Bool) (h1 : -10 ^ 75 < i) (h2 : i < 10 ^ 75) :
    read ordinal (intToWords i flowery ordinal) = some i := by
  obtain ⟨ws, w, v0, M, g1, g2, g3, g4⟩ := body_reads (cardinal flowery) flowery ordinal i.natAbs (by omega) (by
    intro h u hu hU
    exact cardinal_good flowery u (by split at hU <;> omega))
  have hr : readWords ordinal 0 (ws ++ [w]) = some i.natAbs := by
    rw [readWords_append, g2]
    simp [g3, g4]
  unfold intToWords
  rw [if_neg (by omega)]
  dsimp only
  by_cases hi : i < 0
  · rw [if_pos hi, List.flatten_cons]
    have hw : (wordsOf [] ("negative ".toList ++ (body (cardinal flowery) flowery ordinal i.natAbs).flatten)).filter (· ≠ "and".toList)
        = "negative".toList :: (ws ++ [w]) := by
      have := toks_sep "negative".toList ' ' (body (cardinal flowery) flowery ordinal i.natAbs).flatten rfl
      rw [g1, show toks "negative".toList = ["negative".toList] by decide +kernel] at this
      exact this
    unfold read
    rw [hw]
    dsimp only
    rw [if_pos rfl, hr, Option.map_some, Option.some.injEq]
    omega
  · rw [if_neg hi]
    have hw : (wordsOf [] (body (cardinal flowery) flowery ordinal i.natAbs).flatten).filter (· ≠ "and".toList) = ws ++ [w] := g1
    unfold read
    rw [hw]
    have hneg : ∀ (w : List Char) l, ws ++ [w] = "negative".toList :: l → readWords ordinal 0 (ws ++ [w]) = none := by
      intro w l h
      have ec : asCardinal "negative".toList = none := by decide +kernel
      have eo : asOrdinal "negative".toList = none := by decide +kernel
      rw [h]
      cases l with
      | nil => rw [readWords, ec, eo]; cases ordinal <;> rfl
      | cons x l => rw [readWords, ec]; rfl
    cases hl : ws ++ [w] with
    | nil => simp at hl
    | cons x l =>
      dsimp only
      rw [if_neg, ← hl, hr, Option.map_some, Option.some.injEq]
      · omega
      · rintro rfl
        rw [hneg w l hl] at hr
        simp at hr

/-! ### The characters -/

/-- The characters of the output. -/
def Letter (flowery : Bool) (c : Char) : Prop :=
  ('a'.toNat ≤ c.toNat ∧ c.toNat ≤ 'z'.toNat) ∨ c = ' ' ∨ c = '-' ∨ (flowery = true ∧ c = ',')

instance (flowery : Bool) (c : Char) : Decidable (Letter flowery c) := by unfold Letter; infer_instance

theorem letters_tables (flowery : Bool) :
    (∀ o : Bool, ∀ s ∈ firstTwenty o, ∀ c ∈ s.toList, Letter flowery c) ∧ (∀ s ∈ tens, ∀ c ∈ s.toList, Letter flowery c) ∧
    (∀ q ∈ quantitiesHigh, ∀ c ∈ q.2.toList, Letter flowery c) ∧ (∀ q ∈ quantitiesLow, ∀ c ∈ q.2.toList, Letter flowery c) := by
  cases flowery <;> decide +kernel

/-- All characters are letters of the output. -/
def AllLetters (flowery : Bool) (m : Vars) : Prop :=
  (∀ s ∈ m.strings, ∀ c ∈ s, Letter flowery c) ∧ ∀ c ∈ m.spacer, Letter flowery c

theorem loop_letters (rec : Nat → List Char) (flowery : Bool) (hrec : ∀ u, ∀ c ∈ rec u, Letter flowery c) (qs : List (Nat × String))
    (hqs : ∀ q ∈ qs, ∀ c ∈ q.2.toList, Letter flowery c) : ∀ m, AllLetters flowery m → AllLetters flowery (loop rec flowery qs m) := by
  induction qs with
  | nil => intro m h; exact h
  | cons q qs ih =>
    intro m h
    rw [loop]
    have ih := ih (fun q' h => hqs q' (by simp [h]))
    split
    · apply ih
      refine ⟨?_, ?_⟩
      · intro s hs
        simp only [List.mem_append, List.mem_cons, List.not_mem_nil, or_false] at hs
        rcases hs with hs | rfl | rfl | rfl
        · exact h.1 s hs
        · exact h.2
        · exact hrec _
        · exact hqs q (by simp)
      · dsimp only; cases flowery <;> decide
    · exact ih m h

theorem letters_getD (flowery : Bool) (l : List String) (h : ∀ s ∈ l, ∀ c ∈ s.toList, Letter flowery c) (i : Nat) :
    ∀ c ∈ ((l[i]?).getD "").toList, Letter flowery c := by
  cases hi : l[i]? with
  | none => simp
  | some s => exact h s (List.mem_of_getElem? hi)

theorem body_letters (rec : Nat → List Char) (flowery ordinal : Bool) (hrec : ∀ u, ∀ c ∈ rec u, Letter flowery c) (N : Nat) :
    ∀ s ∈ body rec flowery ordinal N, ∀ c ∈ s, Letter flowery c := by
  obtain ⟨t1, t2, t3, t4⟩ := letters_tables flowery
  have h0 : AllLetters flowery ⟨N, [], []⟩ := ⟨by simp, by simp⟩
  have hl : AllLetters flowery (largePart rec flowery N) := by
    unfold largePart
    have : AllLetters flowery (if N ≥ 100 then loop rec flowery (if N ≥ 10 ^ 12 then quantitiesHigh else quantitiesLow) ⟨N, [], []⟩
        else ⟨N, [], []⟩) := by
      split
      · split
        · exact loop_letters rec flowery hrec _ t3 _ h0
        · exact loop_letters rec flowery hrec _ t4 _ h0
      · exact h0
    generalize (if N ≥ 100 then loop rec flowery (if N ≥ 10 ^ 12 then quantitiesHigh else quantitiesLow) ⟨N, [], []⟩
        else ⟨N, [], []⟩ : Vars) = m at this
    dsimp only
    split
    · refine ⟨this.1, ?_⟩
      dsimp only; cases flowery <;> decide
    · exact this
  have ht : AllLetters flowery (tensPart (largePart rec flowery N)) := by
    generalize largePart rec flowery N = m at hl
    unfold tensPart
    split
    · refine ⟨?_, by dsimp only; cases flowery <;> decide⟩
      intro s hs
      simp only [List.mem_append, List.mem_cons, List.not_mem_nil, or_false] at hs
      rcases hs with hs | rfl | rfl
      · exact hl.1 s hs
      · exact hl.2
      · exact letters_getD flowery tens t2 _
    · exact hl
  unfold body
  generalize tensPart (largePart rec flowery N) = m at ht
  unfold unitPart
  intro s hs
  split at hs
  · simp only [List.mem_append, List.mem_cons, List.not_mem_nil, or_false] at hs
    rcases hs with hs | rfl | rfl
    · exact ht.1 s hs
    · exact ht.2
    · exact letters_getD flowery _ (t1 ordinal) _
  · split at hs
    · rw [List.mem_append] at hs
      rcases hs with hs | hs
      · split at hs
        · rw [List.mem_append] at hs
          rcases hs with hs | hs
          · exact ht.1 s ((List.dropLast_sublist _).subset hs)
          · simp only [List.mem_singleton] at hs
            subst hs
            intro c hc
            rw [List.mem_append] at hc
            rcases hc with hc | hc
            · cases hg : m.strings.getLast? with
              | none => rw [hg] at hc; simp at hc
              | some x =>
                rw [hg] at hc
                exact ht.1 x (List.mem_of_getLast? hg) c ((List.dropLast_sublist _).subset hc)
            · revert c hc; cases flowery <;> decide
        · exact ht.1 s hs
      · simp only [List.mem_singleton] at hs
        subst hs
        cases flowery <;> decide
    · exact ht.1 s hs

theorem cardinalN_letters (flowery : Bool) (d : Nat) : ∀ u, ∀ c ∈ cardinalN flowery d u, Letter flowery c := by
  induction d with
  | zero => intro u c hc; simp [cardinalN] at hc
  | succ d ih =>
    intro u c hc
    rw [cardinalN, List.mem_flatten] at hc
    obtain ⟨s, hs, hc⟩ := hc
    exact body_letters _ flowery false ih u s hs c hc

/-- C55: the words are made of lower-case letters, spaces and hyphens, and of commas only if flowery. -/
theorem C55_letters (i : Int) (flowery ordinal : Bool) (h1 : -10 ^ 75 < i) (h2 : i < 10 ^ 75) :
    ∀ c ∈ intToWords i flowery ordinal,
      ('a'.toNat ≤ c.toNat ∧ c.toNat ≤ 'z'.toNat) ∨ c = ' ' ∨ c = '-' ∨ (flowery = true ∧ c = ',') := by
  intro c hc
  unfold intToWords at hc
  rw [if_neg (by omega), List.mem_flatten] at hc
  obtain ⟨s, hs, hc⟩ := hc
  have hb := body_letters (cardinal flowery) flowery ordinal (cardinalN_letters flowery 4) i.natAbs
  split at hs
  · rcases List.mem_cons.1 hs with rfl | hs
    · revert c hc; cases flowery <;> decide
    · exact hb s hs c hc
  · exact hb s hs c hc

/-! ### Different integers have different words -/

/-- The digits of a decimal number. -/
theorem digit_char : ∀ d < 10, (Char.ofNat ('0'.toNat + d)).toNat = '0'.toNat + d := by decide

theorem str_injective {i j : Int} (h : str i = str j) : i = j := by
  have hd : ∀ n : Nat, n ≠ 0 → ((Nat.digits 10 n).reverse.map (fun d => Char.ofNat ('0'.toNat + d))).map
      (fun c => c.toNat - '0'.toNat) = (Nat.digits 10 n).reverse := by
    intro n _
    rw [List.map_map]
    conv => rhs; rw [← List.map_id (Nat.digits 10 n).reverse]
    apply List.map_congr_left
    intro d hd
    have := Nat.digits_lt_base (b := 10) (by omega) (List.mem_reverse.1 hd)
    simp only [Function.comp_apply, digit_char d this, id]
    omega
  have hinj : ∀ n m : Nat, n ≠ 0 → m ≠ 0 →
      (Nat.digits 10 n).reverse.map (fun d => Char.ofNat ('0'.toNat + d)) =
        (Nat.digits 10 m).reverse.map (fun d => Char.ofNat ('0'.toNat + d)) → n = m := by
    intro n m hn hm h
    have := congrArg (List.map (fun c : Char => c.toNat - '0'.toNat)) h
    rw [hd n hn, hd m hm] at this
    exact Nat.digits_inj_iff.1 (List.reverse_inj.1 this)
  have hnotneg : ∀ n : Nat, n ≠ 0 → '-' ∉ (Nat.digits 10 n).reverse.map (fun d => Char.ofNat ('0'.toNat + d)) := by
    intro n _ h
    obtain ⟨d, hd, h⟩ := List.mem_map.1 h
    have hlt := Nat.digits_lt_base (b := 10) (by omega) (List.mem_reverse.1 hd)
    have := digit_char d hlt
    rw [h] at this
    have h2 : '-'.toNat = 45 := rfl
    have h3 : '0'.toNat = 48 := rfl
    omega
  have hzero : ∀ n : Nat, n ≠ 0 → (Nat.digits 10 n).reverse.map (fun d => Char.ofNat ('0'.toNat + d)) ≠ ['0'] := by
    intro n hn h
    have := congrArg (List.map (fun c : Char => c.toNat - '0'.toNat)) h
    rw [hd n hn] at this
    have h4 : Nat.digits 10 n = [0] := by
      have := congrArg List.reverse this
      simpa using this
    have := Nat.ofDigits_digits 10 n
    rw [h4] at this
    simp at this
    omega
  unfold str at h
  by_cases hi : i < 0 <;> by_cases hj : j < 0
  · rw [if_pos hi, if_pos hj, if_neg (by omega), if_neg (by omega)] at h
    have := hinj _ _ (by omega) (by omega) (List.append_cancel_left h)
    omega
  · exfalso
    rw [if_pos hi, if_neg hj, if_neg (by omega)] at h
    by_cases h0 : j = 0
    · rw [if_pos h0] at h; simp at h
    · rw [if_neg h0] at h
      refine hnotneg j.natAbs (by omega) ?_
      rw [List.nil_append] at h
      rw [← h]; simp
  · exfalso
    rw [if_neg hi, if_pos hj, if_neg (show ¬ j = 0 by omega)] at h
    by_cases h0 : i = 0
    · rw [if_pos h0] at h; simp at h
    · rw [if_neg h0] at h
      refine hnotneg i.natAbs (by omega) ?_
      rw [List.nil_append] at h
      rw [h]; simp
  · rw [if_neg hi, if_neg hj, List.nil_append, List.nil_append] at h
    by_cases h0 : i = 0 <;> by_cases h1 : j = 0
    · omega
    · rw [if_pos h0, if_neg h1] at h
      exact absurd h.symm (hzero _ (by omega))
    · rw [if_neg h0, if_pos h1] at h
      exact absurd h (hzero _ (by omega))
    · rw [if_neg h0, if_neg h1] at h
      have := hinj _ _ (by omega) (by omega) h
      omega

/-- Past the limit there is a digit. -/
theorem str_digit (i : Int) : ∃ c ∈ str i, '0'.toNat ≤ c.toNat ∧ c.toNat ≤ '9'.toNat := by
  unfold str
  by_cases h0 : i = 0
  · subst h0; exact ⟨'0', by simp, by decide⟩
  · have hne : Nat.digits 10 i.natAbs ≠ [] := Nat.digits_ne_nil_iff_ne_zero.2 (by omega)
    obtain ⟨d, l, hd⟩ : ∃ d l, Nat.digits 10 i.natAbs = d :: l := by
      cases h : Nat.digits 10 i.natAbs with
      | nil => exact absurd h hne
      | cons d l => exact ⟨d, l, rfl⟩
    have hlt : d < 10 := Nat.digits_lt_base (b := 10) (m := i.natAbs) (by omega) (by rw [hd]; simp)
    refine ⟨Char.ofNat ('0'.toNat + d), ?_, ?_⟩
    · rw [if_neg h0, hd]; simp
    · rw [digit_char d hlt]
      have h2 : '9'.toNat = 57 := rfl
      have h3 : '0'.toNat = 48 := rfl
      omega

/-- C55: past the limit of 10**75 the number is written in digits. -/
theorem C55_outside (i : Int) (flowery ordinal : Bool) (h : i ≤ -10 ^ 75 ∨ 10 ^ 75 ≤ i) :
    intToWords i flowery ordinal = str i := by
  unfold intToWords
  rw [if_pos (by omega)]

/-- C55: different integers never have the same words (with the same arguments), whatever their size. -/
theorem C55_injective (i j : Int) (flowery ordinal : Bool)
    (h : intToWords i flowery ordinal = intToWords j flowery ordinal) : i = j := by
  have hcross : ∀ i j : Int, (-10 ^ 75 < i ∧ i < 10 ^ 75) → (j ≤ -10 ^ 75 ∨ 10 ^ 75 ≤ j) →
      intToWords i flowery ordinal ≠ intToWords j flowery ordinal := by
    intro i j hi hj h
    rw [C55_outside j flowery ordinal hj] at h
    obtain ⟨c, hc, hc2⟩ := str_digit j
    rw [← h] at hc
    have h2 : '9'.toNat = 57 := rfl
    have h3 : '0'.toNat = 48 := rfl
    have h4 : 'a'.toNat = 97 := rfl
    rcases C55_letters i flowery ordinal hi.1 hi.2 c hc with h1 | rfl | rfl | ⟨-, rfl⟩
    · omega
    · revert hc2; decide
    · revert hc2; decide
    · revert hc2; decide
  by_cases hi : -10 ^ 75 < i ∧ i < 10 ^ 75 <;> by_cases hj : -10 ^ 75 < j ∧ j < 10 ^ 75
  · have h1 := C55_reads i flowery ordinal hi.1 hi.2
    rw [h, C55_reads j flowery ordinal hj.1 hj.2] at h1
    simpa using h1.symm
  · exact absurd h (hcross i j hi (by omega))
  · exact absurd h.symm (hcross j i hj (by omega))
  · rw [C55_outside i flowery ordinal (by omega), C55_outside j flowery ordinal (by omega)] at h
    exact str_injective h

/-! ### examples -/

example : intToWords 35 true false = "thirty-five".toList := by decide +kernel
example : intToWords (-1234567) true false =
    "negative one million, two hundred and thirty-four thousand, five hundred and sixty-seven".toList := by decide +kernel
example : intToWords 1234567 false true =
    "one million two hundred thirty-four thousand five hundred sixty-seventh".toList := by decide +kernel
example : intToWords (1500 * 10 ^ 63 + 20) true true =
    "one thousand, five hundred vigintillion and twentieth".toList := by decide +kernel
example : intToWords (10 ^ 75 - 1) true true ≠ intToWords (10 ^ 75) true true := by decide +kernel
example : read false "two million three thousand".toList = some 2003000 := by decide +kernel
example : read true "two million three thousand".toList = none := by decide +kernel

/-- C55: some words have more than one space before them, against the docstring's claim that the output is
that of `inflect`; and the ordinal of twelve is misspelled. -/
theorem C55_spelling : intToWords (10 ^ 33) true false = "one   decillion".toList ∧
    intToWords 12 true true = "twelveth".toList := by decide +kernel

end Big.IntWords
