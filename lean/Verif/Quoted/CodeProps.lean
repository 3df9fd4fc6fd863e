import Verif.Quoted.Code
/-! # C150: split_quoted_strings on text encoded in UTF-8 -/
namespace Big.SQ
open Big.MS Spec

theorem pyStr_sort : ∀ (l : List (List Char)) w, w ∈ pyStr.sort l ↔ w ∈ l := fun _ _ => Iff.rfl
theorem pyBytes_sort : ∀ (l : List (List UInt8)) w, w ∈ pyBytes.sort l ↔ w ∈ l := fun _ _ => Iff.rfl

theorem utf8_code : Code (fun s : List Char => s.flatMap utf8) :=
  code_of_aligned C149_utf8_aligned (fun _ => String.utf8EncodeChar_ne_nil)

/-- The byte of an ASCII character occurs in no other character. -/
theorem utf8_ascii {c d : Char} {b : UInt8} (hd : utf8 d = [b]) : b ∈ utf8 c ↔ c = d := by
  constructor
  · intro hb
    obtain ⟨x, y, hxy⟩ := List.append_of_mem hb
    obtain ⟨x', y', h1, _, _⟩ := C149_utf8_aligned [c] [d] x y (by simp) (by simp [hxy, hd])
    have : d ∈ [c] := by rw [h1]; simp
    exact (List.mem_singleton.1 this).symm
  · rintro rfl; rw [hd]; simp

theorem utf8_breaks (t : List Char) :
    (t.flatMap utf8).any PyBytes.isBreak = t.any (fun c => decide (c = '\n' ∨ c = '\r')) := by
  have hn : utf8 '\n' = [10] := by decide +kernel
  have hr : utf8 '\r' = [13] := by decide +kernel
  rw [Bool.eq_iff_iff]
  simp only [List.any_eq_true, List.mem_flatMap, PyBytes.isBreak, decide_eq_true_eq]
  constructor
  · rintro ⟨b, ⟨c, hc, hb⟩, rfl | rfl⟩
    · exact ⟨c, hc, .inl ((utf8_ascii hn).1 hb)⟩
    · exact ⟨c, hc, .inr ((utf8_ascii hr).1 hb)⟩
  · rintro ⟨c, hc, rfl | rfl⟩
    · exact ⟨10, ⟨_, hc, by rw [hn]; simp⟩, .inl rfl⟩
    · exact ⟨13, ⟨_, hc, by rw [hr]; simp⟩, .inr rfl⟩

theorem isBreak_crlf {c : Char} (h : c = '\n' ∨ c = '\r') : PyStr.isBreak c = true := by
  rcases h with rfl | rfl <;> decide +kernel

/-- C150: for a text whose only line breaks are `\n` and `\r` (and so for every ASCII text without `\v`, `\f` and the
separators 1C to 1E), split_quoted_strings of the text encoded in UTF-8, with all other arguments encoded, yields what it
yields for the text, encoded, and raises what it raises. -/
theorem C150_utf8 (s : List Char) (hs : ∀ c ∈ s, PyStr.isBreak c = true → c = '\n' ∨ c = '\r')
    (quotes ml : List (List Char)) (escape state : List Char) :
    splitQuotedStrings pyBytes (s.flatMap utf8) (quotes.map (List.flatMap utf8)) (escape.flatMap utf8)
        (ml.map (List.flatMap utf8)) (state.flatMap utf8) =
      encodeResult utf8 (splitQuotedStrings pyStr s quotes escape ml state) := by
  refine code_sq utf8_code C72_reversed_tables.1 C72_reversed_tables.2 pyStr_sort pyBytes_sort (by decide +kernel) s ?_
    quotes escape state
  intro t ht hts
  rw [bytes_multi _ (fun h0 => ht (utf8_code.eq_nil.1 h0)), str_multi t ht, utf8_breaks, Bool.eq_iff_iff]
  simp only [List.any_eq_true, decide_eq_true_eq]
  exact ⟨fun ⟨c, hc, h⟩ => ⟨c, hc, isBreak_crlf h⟩, fun ⟨c, hc, h⟩ => ⟨c, hc, hs c (hts c hc) h⟩⟩

/-- C150: for any text of which split_quoted_strings ends without an exception. -/
theorem C150_no_exception (s : List Char) (quotes ml : List (List Char)) (escape state : List Char)
    (tuples : List (Tuple Char)) (hok : splitQuotedStrings pyStr s quotes escape ml state = .ok (tuples, none)) :
    splitQuotedStrings pyBytes (s.flatMap utf8) (quotes.map (List.flatMap utf8)) (escape.flatMap utf8)
        (ml.map (List.flatMap utf8)) (state.flatMap utf8) =
      .ok (tuples.map (fun x => (x.1.flatMap utf8, x.2.1.flatMap utf8, x.2.2.flatMap utf8)), none) := by
  have := code_sq_le (ml := ml) utf8_code C72_reversed_tables.1 C72_reversed_tables.2 pyStr_sort pyBytes_sort (by decide +kernel) s
    ?_ quotes escape state ?_
  · rw [hok] at this; exact this
  · intro t ht
    rw [bytes_multi _ (fun h0 => ht (utf8_code.eq_nil.1 h0)), str_multi t ht, utf8_breaks]
    simp only [List.any_eq_true, decide_eq_true_eq]
    exact fun ⟨c, hc, h⟩ => ⟨c, hc, isBreak_crlf h⟩
  · intro r hr
    rw [hok] at hr
    cases hr
    rfl

/-- C150: for any text, if all quotes are multiline quotes. -/
theorem C150_multiline (s : List Char) (ml : List (List Char)) (escape state : List Char) :
    splitQuotedStrings pyBytes (s.flatMap utf8) [] (escape.flatMap utf8) (ml.map (List.flatMap utf8)) (state.flatMap utf8) =
      encodeResult utf8 (splitQuotedStrings pyStr s [] escape ml state) := by
  rw [← sq_oneLine, ← sq_oneLine (E := pyStr)]
  refine code_sq (E := oneLine pyStr) (E' := oneLine pyBytes) utf8_code C72_reversed_tables.1 C72_reversed_tables.2
    pyStr_sort pyBytes_sort (by decide +kernel) s ?_ [] escape state
  intro t _ _
  simp [multi, oneLine]

/-- C150: with U+2028 in a quoted string the str call raises SyntaxError and the bytes call does not. -/
theorem C150_counterexample :
    splitQuotedStrings pyStr ['"', 'a', '\u2028', '"'] [['"']] ['\\'] [] [] = .ok ([], some .syntaxError) ∧
    splitQuotedStrings pyBytes (['"', 'a', '\u2028', '"'].flatMap utf8) [[34]] [92] [] [] =
      .ok ([([34], [97, 226, 128, 168], [34])], none) :=
  ⟨by decide +kernel, by decide +kernel⟩

/-- French quote marks, and a character whose encoding shares a byte with them. -/
example : (∀ c ∈ ['x', '«', 'a', 'ë', '\\', '«', '«', 'z'], PyStr.isBreak c = true → c = '\n' ∨ c = '\r') ∧
    splitQuotedStrings pyStr ['x', '«', 'a', 'ë', '\\', '«', '«', 'z'] [['«']] ['\\'] [] [] =
      .ok ([([], ['x'], []), (['«'], ['a', 'ë', '\\', '«'], ['«']), ([], ['z'], [])], none) ∧
    splitQuotedStrings pyBytes [120, 194, 171, 97, 195, 171, 92, 194, 171, 194, 171, 122] [[194, 171]] [92] [] [] =
      .ok ([([], [120], []), ([194, 171], [97, 195, 171, 92, 194, 171], [194, 171]), ([], [122], [])], none) :=
  ⟨by decide +kernel, by decide +kernel, by decide +kernel⟩

end Big.SQ
