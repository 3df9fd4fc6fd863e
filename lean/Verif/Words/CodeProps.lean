import Verif.Words.Code
import Verif.Quoted.CodeProps
/-! # C152: splitting and title-casing text encoded in UTF-8 -/
namespace Big.Words
open Big.MS (utf8 isSpace)
open Big.SQ (utf8_ascii)

/-- `bytes.islower` of one byte. For text.py:1425-1457. -/
def byteLower (b : UInt8) : Bool := decide (97 ≤ b ∧ b ≤ 122)
/-- `bytes.isupper` of one byte. For text.py:1425-1457. -/
def byteUpper (b : UInt8) : Bool := decide (65 ≤ b ∧ b ≤ 90)

/-! ### ASCII -/

theorem ascii_encoded (c : Char) (h : c.toNat < 128) : utf8 c = [c.toNat.toUInt8] := by
  have : ∀ n < 128, utf8 (Char.ofNat n) = [n.toUInt8] := by decide +kernel
  have := this c.toNat h
  rwa [Char.ofNat_toNat] at this

/-- The bytes of a character that is not ASCII are not ASCII. -/
theorem not_ascii {c : Char} (h : ¬ c.toNat < 128) {b : UInt8} (hb : b ∈ utf8 c) : 128 ≤ b.toNat := by
  refine Nat.le_of_not_lt fun hlt => h ?_
  have hd : (Char.ofNat b.toNat).toNat = b.toNat := by
    have : ∀ n < 128, (Char.ofNat n).toNat = n := by decide +kernel
    exact this _ hlt
  have he := ascii_encoded (Char.ofNat b.toNat) (by rw [hd]; exact hlt)
  rw [hd] at he
  have hbb : b.toNat.toUInt8 = b := by simp
  rw [hbb] at he
  have := (utf8_ascii (c := c) he).1 hb
  rw [this, hd]
  exact hlt

theorem ascii_case (c : Char) (h : c.toNat < 128) :
    byteLower c.toNat.toUInt8 = c.isLower ∧ byteUpper c.toNat.toUInt8 = c.isUpper := by
  have : ∀ n < 128, byteLower n.toUInt8 = (Char.ofNat n).isLower ∧ byteUpper n.toUInt8 = (Char.ofNat n).isUpper := by
    decide +kernel
  have := this c.toNat h
  rwa [Char.ofNat_toNat] at this

theorem big_byte {b : UInt8} (h : 128 ≤ b.toNat) : byteLower b = false ∧ byteUpper b = false ∧ bytesTitle.space b = false ∧
    b ≠ bytesTitle.lparen ∧ bytesTitle.upper b = [b] ∧ bytesTitle.isDO (bytesTitle.upper b) = false := by
  have : ∀ n < 256, 128 ≤ n → byteLower n.toUInt8 = false ∧ byteUpper n.toUInt8 = false ∧
      bytesTitle.space n.toUInt8 = false ∧ n.toUInt8 ≠ bytesTitle.lparen ∧ bytesTitle.upper n.toUInt8 = [n.toUInt8] ∧
      bytesTitle.isDO (bytesTitle.upper n.toUInt8) = false := by decide +kernel
  have := this b.toNat b.toNat_lt h
  simpa using this

theorem case_of_not_ascii {c : Char} (h : ¬ c.toNat < 128) : c.isLower = false ∧ c.isUpper = false := by
  have hc : 128 ≤ c.val.toNat := Nat.le_of_not_lt h
  constructor
  · cases hl : c.isLower
    · rfl
    · simp only [Char.isLower, Bool.and_eq_true, decide_eq_true_eq] at hl
      have := hl.2
      rw [UInt32.le_iff_toNat_le] at this
      have h2 : 'z'.val.toNat = 122 := rfl
      omega
  · cases hl : c.isUpper
    · rfl
    · simp only [Char.isUpper, Bool.and_eq_true, decide_eq_true_eq] at hl
      have := hl.2
      rw [UInt32.le_iff_toNat_le] at this
      have h2 : 'Z'.val.toNat = 90 := rfl
      omega

/-! ### split_title_case -/

/-- C152: split_title_case of a text encoded in UTF-8 yields what it yields for the text, encoded, if ASCII letters are the
only characters in the text that are lower- or upper-case. -/
theorem C152_split_title_case (islower isupper : Char → Bool) (split_allcaps : Bool) (s : List Char)
    (hs : ∀ c ∈ s, islower c = c.isLower ∧ isupper c = c.isUpper) :
    splitTitleCase byteLower byteUpper split_allcaps (s.flatMap utf8) =
      (splitTitleCase islower isupper split_allcaps s).map (List.flatMap utf8) := by
  refine code_title s ?_
  intro c hc
  obtain ⟨h1, h2⟩ := hs c hc
  by_cases h : c.toNat < 128
  · exact .inl ⟨_, ascii_encoded c h, by rw [h1]; exact (ascii_case c h).1, by rw [h2]; exact (ascii_case c h).2⟩
  · refine .inr ⟨by rw [h1]; exact (case_of_not_ascii h).1, by rw [h2]; exact (case_of_not_ascii h).2,
      String.utf8EncodeChar_ne_nil, ?_⟩
    intro b hb
    have := big_byte (not_ascii h hb)
    exact ⟨this.1, this.2.1⟩

/-- C152: not so if the text has other letters: éÉ is two words, but one if it is encoded. -/
theorem C152_title_counterexample (islower isupper : Char → Bool) (h1 : islower 'é' = true) (h2 : isupper 'É' = true) (ac : Bool) :
    splitTitleCase islower isupper ac ['é', 'É'] = [['é'], ['É']] ∧
    splitTitleCase byteLower byteUpper ac (['é', 'É'].flatMap utf8) = [['é', 'É'].flatMap utf8] := by
  constructor
  · simp [splitTitleCase, titleLoop, enter, h1, h2]
  · cases ac <;> decide +kernel

/-! ### gently_title -/

/-- An argument listing marks, encoded. -/
def encodeMarks : Option (List (List Char)) → Option (List (List UInt8)) :=
  Option.map (List.map (List.flatMap utf8))

/-- The marks an argument lists: by default those of `quotes`. For text.py:1664-1688. -/
def IsMark (dflt : Char → Bool) (arg : Option (List (List Char))) (c : Char) : Prop :=
  match arg with
  | none => dflt c = true
  | some l => [c] ∈ l

theorem utf8_nil (w : List Char) : w.flatMap utf8 = [] ↔ w = [] := by
  cases w with
  | nil => simp
  | cons c w => simp [show utf8 c ≠ [] from String.utf8EncodeChar_ne_nil]

theorem quoteTest_encoded (dflt : Char → Bool) (dflt' : UInt8 → Bool)
    (h : ∀ c : Char, c.toNat < 128 → dflt' c.toNat.toUInt8 = dflt c) (hbig : ∀ b : UInt8, 128 ≤ b.toNat → dflt' b = false)
    (arg : Option (List (List Char))) :
    (quoteTest dflt' (encodeMarks arg) = .error .valueError ∧ quoteTest dflt arg = .error .valueError) ∨
    ∃ t t', quoteTest dflt arg = .ok t ∧ quoteTest dflt' (encodeMarks arg) = .ok t' ∧ (∀ c, t c = true ↔ IsMark dflt arg c) ∧
      (∀ c : Char, c.toNat < 128 → t' c.toNat.toUInt8 = t c) ∧ ∀ b : UInt8, 128 ≤ b.toNat → t' b = false := by
  cases arg with
  | none => exact .inr ⟨dflt, dflt', rfl, rfl, fun _ => Iff.rfl, h, hbig⟩
  | some l =>
    have hempty : (l.map (List.flatMap utf8)).any List.isEmpty = l.any List.isEmpty := by
      rw [Bool.eq_iff_iff]
      simp only [List.any_map, List.any_eq_true, Function.comp, List.isEmpty_iff, utf8_nil]
    have single : ∀ b : UInt8, [b] ∈ l.map (List.flatMap utf8) ↔ ∃ c, utf8 c = [b] ∧ [c] ∈ l := by
      intro b
      rw [List.mem_map]
      constructor
      · rintro ⟨w, hw, he⟩
        match w with
        | [] => simp at he
        | [c] => exact ⟨c, by simpa using he, hw⟩
        | c :: d :: w =>
          have hc : utf8 c ≠ [] := String.utf8EncodeChar_ne_nil
          have hd : utf8 d ≠ [] := String.utf8EncodeChar_ne_nil
          have := congrArg List.length he
          have := List.length_pos_iff.2 hc
          have := List.length_pos_iff.2 hd
          simp only [List.flatMap_cons, List.length_append, List.length_cons, List.length_nil] at *
          omega
      · rintro ⟨c, hc, hl⟩
        exact ⟨[c], hl, by simp [hc]⟩
    unfold quoteTest encodeMarks
    simp only [Option.map_some, hempty, List.isEmpty_map]
    by_cases h1 : l.any List.isEmpty = true
    · exact .inl ⟨by rw [if_pos h1], by rw [if_pos h1]⟩
    · rw [if_neg h1, if_neg h1]
      by_cases h2 : l.isEmpty = true
      · exact .inl ⟨by rw [if_pos h2], by rw [if_pos h2]⟩
      · rw [if_neg h2, if_neg h2]
        refine .inr ⟨_, _, rfl, rfl, fun c => by simp [IsMark], ?_, ?_⟩
        · intro c hc
          rw [Bool.eq_iff_iff]
          simp only [List.contains_iff_mem, single]
          constructor
          · rintro ⟨d, hd, hl⟩
            have := (utf8_ascii (c := c) hd).1 (by rw [ascii_encoded c hc]; simp)
            rwa [this]
          · exact fun hl => ⟨c, ascii_encoded c hc, hl⟩
        · intro b hb
          rw [Bool.eq_false_iff]
          simp only [ne_eq, List.contains_iff_mem, single]
          rintro ⟨d, hd, hl⟩
          by_cases h : d.toNat < 128
          · rw [ascii_encoded d h] at hd
            simp only [List.cons.injEq, and_true] at hd
            have : b.toNat = d.toNat := by rw [← hd]; simp; omega
            omega
          · -- a character that is not ASCII takes more than one byte
            have : ∀ b : UInt8, ∀ d : Char, utf8 d = [b] → d.toNat < 128 := by
              intro b d hd
              have := congrArg List.length hd
              unfold utf8 at this
              rw [String.length_utf8EncodeChar] at this
              simp only [List.length_cons, List.length_nil] at this
              unfold Char.utf8Size at this
              dsimp only at this
              split at this
              · rename_i hle
                rw [UInt32.le_iff_toNat_le] at hle
                have h2 : (UInt32.ofNatLT 0x7F (by decide)).toNat = 127 := rfl
                have : d.toNat = d.val.toNat := rfl
                omega
              · split at this
                · omega
                · split at this <;> omega
            exact h (this b d hd)

/-- C152: gently_title of a text encoded in UTF-8, with the apostrophes and double quotes encoded too, yields what it yields
for the text, encoded, and raises what it raises: if every character of the text that is not ASCII is neither whitespace nor
an apostrophe nor a double quote (as given, or by default) nor changed by str.upper, and the text has none of the four ASCII
separators 1C to 1F. -/
theorem C152_gently_title (upper : Char → List Char) (hup : ∀ c : Char, c.toNat < 128 → upper c = [c.toUpper])
    (s : List Char) (apostrophes double_quotes : Option (List (List Char)))
    (hsep : ∀ c ∈ s, ¬ (0x1c ≤ c.toNat ∧ c.toNat ≤ 0x1f))
    (hs : ∀ c ∈ s, 128 ≤ c.toNat → isSpace c = false ∧ upper c = [c] ∧
      ¬ IsMark (strTitle upper).defApos apostrophes c ∧ ¬ IsMark (strTitle upper).defQuote double_quotes c) :
    gentlyTitle bytesTitle (s.flatMap utf8) (encodeMarks apostrophes) (encodeMarks double_quotes) =
      (gentlyTitle (strTitle upper) s apostrophes double_quotes).map (List.flatMap utf8) := by
  have A := quoteTest_encoded (strTitle upper).defApos bytesTitle.defApos (by
      have : ∀ n < 128, bytesTitle.defApos n.toUInt8 = ['\'', '‘', '’', '‚', '‛'].contains (Char.ofNat n) := by decide +kernel
      intro c hc
      have := this c.toNat hc
      rwa [Char.ofNat_toNat] at this) (by
      have : ∀ n < 256, 128 ≤ n → bytesTitle.defApos n.toUInt8 = false := by decide +kernel
      intro b hb
      have := this b.toNat b.toNat_lt hb
      simpa using this) apostrophes
  have Q := quoteTest_encoded (strTitle upper).defQuote bytesTitle.defQuote (by
      have : ∀ n < 128, bytesTitle.defQuote n.toUInt8 =
        ['"', '“', '”', '„', '‟', '«', '»', '‹', '›'].contains (Char.ofNat n) := by decide +kernel
      intro c hc
      have := this c.toNat hc
      rwa [Char.ofNat_toNat] at this) (by
      have : ∀ n < 256, 128 ≤ n → bytesTitle.defQuote n.toUInt8 = false := by decide +kernel
      intro b hb
      have := this b.toNat b.toNat_lt hb
      simpa using this) double_quotes
  rcases A with ⟨a1, a2⟩ | ⟨apos, apos', a1, a2, a3, a4, a5⟩
  · simp only [gentlyTitle, a1, a2]; rfl
  · rcases Q with ⟨q1, q2⟩ | ⟨quote, quote', q1, q2, q3, q4, q5⟩
    · simp only [gentlyTitle, a1, a2, q1, q2]; rfl
    · simp only [gentlyTitle, a1, a2, q1, q2, Except.map]
      congr 1
      refine code_gentlyLoop s ?_ _
      intro c hc
      by_cases h : c.toNat < 128
      · refine .inl ⟨_, ascii_encoded c h, ?_, ?_, ?_, ?_, a4 c h, q4 c h⟩
        · have : ∀ n < 128, ¬ (0x1c ≤ n ∧ n ≤ 0x1f) → bytesTitle.space n.toUInt8 = isSpace (Char.ofNat n) := by decide +kernel
          have := this c.toNat h (hsep c hc)
          rwa [Char.ofNat_toNat] at this
        · have : ∀ n < 128, (n.toUInt8 = bytesTitle.lparen ↔ Char.ofNat n = '(') := by decide +kernel
          have := this c.toNat h
          rwa [Char.ofNat_toNat] at this
        · show _ = (upper c).flatMap utf8
          rw [hup c h]
          have : ∀ n < 128, bytesTitle.upper n.toUInt8 = [(Char.ofNat n).toUpper].flatMap utf8 := by decide +kernel
          have := this c.toNat h
          rwa [Char.ofNat_toNat] at this
        · show _ = (strTitle upper).isDO (upper c)
          rw [hup c h]
          have : ∀ n < 128, bytesTitle.isDO (bytesTitle.upper n.toUInt8) =
            ([(Char.ofNat n).toUpper].isEmpty || [(Char.ofNat n).toUpper] == ['D'] || [(Char.ofNat n).toUpper] == ['O'] ||
              [(Char.ofNat n).toUpper] == ['D', 'O']) := by decide +kernel
          have := this c.toNat h
          rwa [Char.ofNat_toNat] at this
      · obtain ⟨h1, h2, h3, h4⟩ := hs c hc (Nat.le_of_not_lt h)
        have hne : ∀ d : Char, d.toNat < 128 → c ≠ d := fun d hd e => h (e ▸ hd)
        refine .inr ⟨⟨h1, hne '(' (by decide), h2, ?_, ?_, ?_⟩, String.utf8EncodeChar_ne_nil, ?_⟩
        · show (strTitle upper).isDO (upper c) = false
          rw [h2]
          simp [strTitle, hne 'D' (by decide), hne 'O' (by decide)]
        · rw [Bool.eq_false_iff]; exact fun h => h3 ((a3 c).1 h)
        · rw [Bool.eq_false_iff]; exact fun h => h4 ((q3 c).1 h)
        · intro b hb
          have hb' := not_ascii h hb
          obtain ⟨_, _, h5, h6, h7, h8⟩ := big_byte hb'
          exact ⟨h5, h6, h7, h8, a5 b hb', q5 b hb'⟩

/-- C152: the conditions are needed: after an ASCII separator, and after a no-break space, str sees a word and bytes does not;
and a curly quote mark is one for str only. -/
theorem C152_gently_counterexamples (upper : Char → List Char) (hup : ∀ c : Char, c.toNat < 128 → upper c = [c.toUpper])
    (hcurly : upper '“' = ['“']) :
    (gentlyTitle (strTitle upper) ['a', '\x1c', 'b'] none none = .ok ['A', '\x1c', 'B'] ∧
      gentlyTitle bytesTitle [97, 28, 98] none none = .ok [65, 28, 98]) ∧
    (gentlyTitle (strTitle upper) ['a', '\u00a0', 'b'] none none = .ok ['A', '\u00a0', 'B'] ∧
      gentlyTitle bytesTitle (['a', '\u00a0', 'b'].flatMap utf8) none none = .ok (['A', '\u00a0', 'b'].flatMap utf8)) ∧
    gentlyTitle (strTitle upper) ['“', 'a'] none none = .ok ['“', 'A'] ∧
      gentlyTitle bytesTitle (['“', 'a'].flatMap utf8) none none = .ok (['“', 'a'].flatMap utf8) := by
  have ha := hup 'a' (by decide)
  have hb := hup 'b' (by decide)
  have ea : 'a'.toUpper = 'A' := by decide
  have eb : 'b'.toUpper = 'B' := by decide
  rw [ea] at ha
  rw [eb] at hb
  have s1 : isSpace 'a' = false := by decide +kernel
  have s2 : isSpace 'b' = false := by decide +kernel
  have s3 : isSpace '\x1c' = true := by decide +kernel
  have s4 : isSpace '\u00a0' = true := by decide +kernel
  have s5 : isSpace '“' = false := by decide +kernel
  refine ⟨⟨?_, by decide +kernel⟩, ⟨?_, by decide +kernel⟩, ?_, by decide +kernel⟩
  · simp [gentlyTitle, quoteTest, gentlyLoop, gentlyStep, strTitle, ha, hb, s1, s2, s3]
  · simp [gentlyTitle, quoteTest, gentlyLoop, gentlyStep, strTitle, ha, hb, s1, s2, s4]
  · simp [gentlyTitle, quoteTest, gentlyLoop, gentlyStep, strTitle, ha, hcurly, s1, s5]

instance (dflt : Char → Bool) (arg : Option (List (List Char))) (c : Char) : Decidable (IsMark dflt arg c) :=
  match arg with
  | none => inferInstanceAs (Decidable (dflt c = true))
  | some l => inferInstanceAs (Decidable ([c] ∈ l))

/-- The conditions hold of a text with characters that are not ASCII, with French quote marks listed (and not in the text). -/
example : let s := "to →dor (o'neil)".toList
    (∀ c ∈ s, ¬ (0x1c ≤ c.toNat ∧ c.toNat ≤ 0x1f)) ∧
    (∀ c ∈ s, 128 ≤ c.toNat → isSpace c = false ∧ [c.toUpper] = [c] ∧
      ¬ IsMark (strTitle (fun c => [c.toUpper])).defApos none c ∧
      ¬ IsMark (strTitle (fun c => [c.toUpper])).defQuote (some [['"'], ['«']]) c) ∧
    gentlyTitle (strTitle (fun c => [c.toUpper])) s none (some [['"'], ['«']]) = .ok "To →dor (O'Neil)".toList ∧
    gentlyTitle bytesTitle (s.flatMap utf8) none (some [[34], [194, 171]]) =
      .ok ("To →dor (O'Neil)".toList.flatMap utf8) := by decide +kernel

example : splitTitleCase byteLower byteUpper true ("fooBar→BAZQux".toList.flatMap utf8) =
      ["foo".toList, "Bar→BAZ".toList, "Qux".toList].map (List.flatMap utf8) := by decide +kernel

/-- Two arrays of one text, and the encoded ones. -/
example : combineSplits "aé→b".toList ["aé".toList :: ["→b".toList], ["a".toList, "é→b".toList]] =
      (["a".toList, "é".toList, "→b".toList], none) ∧
    combineSplits ("aé→b".toList.flatMap utf8)
      [[[97, 195, 169], [226, 134, 146, 98]], [[97], [195, 169, 226, 134, 146, 98]]] =
      ([[97], [195, 169], [226, 134, 146, 98]], none) := by decide +kernel

end Big.Words
