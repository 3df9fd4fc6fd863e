import Verif.Lines.Code3
/-! # C154: the lines of text encoded in UTF-8 -/
namespace Big.Lines
open Big.MS (utf8)

variable {μ : Type}

/-- A call of a lines modifier, and the call with its arguments encoded. The separators of lines_strip are ASCII, and
lines_convert_tabs_to_spaces is only for texts that are (`ascii`). `search` and `search'` of lines_grep find the same matches, and `lt` and `lt'` of lines_sort
compare the same, in text and encoded text. -/
inductive Encoded (ascii : Prop) : Modifier Char μ → Modifier UInt8 μ → Prop
  | rstrip : Encoded ascii (.rstrip none) (.rstrip none)
  | rstripSeparators (seps : List (List Char)) : [] ∉ seps → Encoded ascii (.rstrip (some seps)) (.rstrip (some (seps.map enc)))
  | stripSeparators (seps : List (List Char)) : [] ∉ seps → (∀ w ∈ seps, ∀ c ∈ w, c.toNat < 128) →
      Encoded ascii (.strip (some seps)) (.strip (some (seps.map enc)))
  | convertTabsToSpaces : ascii → Encoded ascii .convertTabsToSpaces .convertTabsToSpaces
  | strip : Encoded ascii (.strip none) (.strip none)
  | filterLineCommentLines (markers : List (List Char)) : [] ∉ markers →
      Encoded ascii (.filterLineCommentLines markers) (.filterLineCommentLines (markers.map enc))
  | containing (s : List Char) (invert : Bool) : Encoded ascii (.containing s invert) (.containing (enc s) invert)
  | grep (search : List Char → Option μ) (search' : List UInt8 → Option μ) (name : String) (invert : Bool) :
      (∀ t, search' (enc t) = search t) → Encoded ascii (.grep search name invert) (.grep search' name invert)
  | sort (lt : Pair Char μ → Pair Char μ → Bool) (lt' : Pair UInt8 μ → Pair UInt8 μ → Bool) (reverse : Bool) :
      (∀ p q, lt' (encodePair p) (encodePair q) = lt p q) → Encoded ascii (.sort lt reverse) (.sort lt' reverse)
  | stripLineComments (a : Comments Char) : [] ∉ a.markers → Encoded ascii (.stripLineComments a) (.stripLineComments (encodeComments a))
  | stripIndent : Encoded ascii .stripIndent .stripIndent
  | filterEmptyLines : Encoded ascii .filterEmptyLines .filterEmptyLines

theorem apply_code {col tw : Int} {s : List Char} (hs : Plain s) {m : Modifier Char μ} {m' : Modifier UInt8 μ} (hm : Encoded (∀ c ∈ s, c.toNat < 128) m m') (hsp : ' ' ∈ s)
    (li : Stream Char μ) (hli : ∀ p ∈ li.1, Good s p) :
    m'.apply (bytesText col tw) (encodeStream li) = encodeStream (m.apply (strText col tw) li) ∧
      ∀ p ∈ (m.apply (strText col tw) li).1, Good s p := by
  obtain ⟨l, e⟩ := li
  cases hm with
  | rstrip => exact each_code (rstrip_code hs) e l hli
  | rstripSeparators seps he => exact each_code (rstripSeps_code he) e l hli
  | stripSeparators seps he ha => exact each_code (stripSeps_code he ha) e l hli
  | convertTabsToSpaces ha => exact each_code (tabs_code ha hsp) e l hli
  | strip => exact each_code (strip_code hs) e l hli
  | filterLineCommentLines markers he =>
    simp only [Modifier.apply, List.isEmpty_map]
    by_cases h0 : markers.isEmpty = true
    · simp only [h0, if_true]
      exact ⟨rfl, by simp⟩
    · simp only [h0, if_false, Bool.false_eq_true]
      exact each_code (filter_code _ _ (fun t ht => by rw [comment_code (by simpa using h0) he (hs.sub ht)])) e l hli
  | containing t invert => exact each_code (filter_code _ _ (fun _ _ => by rw [contains_code])) e l hli
  | grep search search' name invert h => exact each_code (grep_code h name invert) e l hli
  | sort lt lt' reverse h =>
    cases e with
    | some x => exact ⟨rfl, by simp [Modifier.apply]⟩
    | none =>
      refine ⟨?_, ?_⟩
      · simp only [Modifier.apply, encodeStream, sort_code h]
      · intro p hp
        refine hli p ?_
        simp only [Modifier.apply, sort] at hp
        split at hp <;> simpa using hp
  | stripLineComments a he =>
    simp only [Modifier.apply]
    rw [show (encodeComments a).markers = a.markers.map enc from rfl, List.isEmpty_map]
    by_cases h0 : a.markers.isEmpty = true
    · simp only [h0, if_true]
      exact ⟨rfl, by simp⟩
    · simp only [h0, if_false, Bool.false_eq_true]
      have hx : Plain ['x'] := by
        intro c hc
        rw [List.mem_singleton.1 hc]
        exact ⟨fun h => absurd h (by decide +kernel), fun h => absurd h (by decide +kernel)⟩
      have h1 : segmentsOf (bytesText col tw) (encodeComments a) [] [120] =
          (segmentsOf (strText col tw) a [] ['x']).map (fun r => (r.1.map encT, r.2)) := by
        rw [show [120] = enc ['x'] by decide +kernel]
        exact segmentsOf_code (col := col) (tw := tw) a [] hx
      rw [show (bytesText col tw).sq.laden = 120 from rfl, show (strText col tw).sq.laden = 'x' from rfl, h1]
      cases segmentsOf (strText col tw) a [] ['x'] with
      | error x => exact ⟨rfl, by simp⟩
      | ok r => exact commentLoop_code hs (by simpa using h0) he e l [] (by simp) hli
  | stripIndent => exact indentLoop_code hs e l [] [] hli (by simp)
  | filterEmptyLines => exact each_code (filter_code _ _ (fun _ _ => by rw [enc_isEmpty])) e l hli

theorem lines_good (col tw n : Int) (s : List Char) (separators : Option (List (List Char)))
    (hne : usedSeparators (strText col tw) separators ≠ []) (he : [] ∉ usedSeparators (strText col tw) separators) :
    ∀ p ∈ (lines (μ := μ) (strText col tw) n (.text s separators)).1, Good s p := by
  obtain ⟨L, out, -, h1, -, -, -, h2, h3⟩ := C49_lines_of_text (μ := μ) (E := strText col tw) Big.MS.C72_reversed_tables.1
    separators hne he n s
  rw [h1]
  intro p hp
  obtain ⟨i, hi⟩ := List.getElem?_of_mem hp
  obtain ⟨-, g1, -, g2, -⟩ := h3 i p hi
  refine ⟨?_, by rw [g2]; simp⟩
  intro c hc
  rw [← h2]
  exact List.mem_flatten.2 ⟨p.1.line, List.mem_map_of_mem hp, by rw [g1]; simp [hc]⟩

theorem chain_code {col tw : Int} {s : List Char} (hs : Plain s) (hsp : ' ' ∈ s) : ∀ (ms : List (Modifier Char μ × Modifier UInt8 μ)),
    (∀ x ∈ ms, Encoded (∀ c ∈ s, c.toNat < 128) x.1 x.2) → ∀ li : Stream Char μ, (∀ p ∈ li.1, Good s p) →
    chain (bytesText col tw) (encodeStream li) (ms.map Prod.snd) = encodeStream (chain (strText col tw) li (ms.map Prod.fst))
  | [], _, _, _ => rfl
  | x :: ms, h, li, hli => by
    obtain ⟨h1, h2⟩ := apply_code (col := col) (tw := tw) hs (h x (by simp)) hsp li hli
    have := chain_code (col := col) (tw := tw) hs hsp ms (fun y hy => h y (by simp [hy])) _ h2
    simp only [chain, List.map_cons, List.foldl_cons, h1] at this ⊢
    exact this

theorem Encoded.mono {a b : Prop} (h : a → b) {m : Modifier Char μ} {m' : Modifier UInt8 μ} (hm : Encoded a m m') :
    Encoded b m m' := by
  cases hm with
  | convertTabsToSpaces ha => exact .convertTabsToSpaces (h ha)
  | rstrip => exact .rstrip
  | rstripSeparators seps he => exact .rstripSeparators seps he
  | stripSeparators seps he ha => exact .stripSeparators seps he ha
  | strip => exact .strip
  | filterLineCommentLines markers he => exact .filterLineCommentLines markers he
  | containing t invert => exact .containing t invert
  | grep search search' name invert h => exact .grep search search' name invert h
  | sort lt lt' reverse h => exact .sort lt lt' reverse h
  | stripLineComments a he => exact .stripLineComments a he
  | stripIndent => exact .stripIndent
  | filterEmptyLines => exact .filterEmptyLines

theorem chain_space {col tw : Int} {s : List Char} (hs : Plain s) (ms : List (Modifier Char μ × Modifier UInt8 μ))
    (hms : ∀ x ∈ ms, Encoded (∀ c ∈ s, c.toNat < 128) x.1 x.2) (li : Stream Char μ) (hli : ∀ p ∈ li.1, Good s p) :
    chain (bytesText col tw) (encodeStream li) (ms.map Prod.snd) = encodeStream (chain (strText col tw) li (ms.map Prod.fst)) := by
  refine chain_code (s := s ++ [' ']) ?_ (by simp) ms ?_ li ?_
  · intro c hc
    rcases List.mem_append.1 hc with hc | hc
    · exact hs c hc
    · rw [List.mem_singleton.1 hc]
      exact ⟨fun h => absurd h (by decide +kernel), fun _ => .inr rfl⟩
  · intro x hx
    refine (hms x hx).mono ?_
    intro h c hc
    rcases List.mem_append.1 hc with hc | hc
    · exact h c hc
    · rw [List.mem_singleton.1 hc]; decide
  · intro p hp
    exact ⟨fun c hc => by simp [(hli p hp).line c hc], (hli p hp).leading⟩

/-- **C154**: for a text whose only line breaks are `\n` and `\r`, and whose only whitespace is ASCII whitespace (but for the
separators 1C to 1F): lines of the text encoded in UTF-8, through any chain of lines modifiers with their arguments encoded,
yields what it yields for the text, encoded, with the same line numbers, column numbers and indents, and raises what it
raises. -/
theorem C154_lines {s : List Char} (hs : Plain s) (column tab_width line_number : Int)
    (ms : List (Modifier Char μ × Modifier UInt8 μ)) (hms : ∀ x ∈ ms, Encoded (∀ c ∈ s, c.toNat < 128) x.1 x.2) :
    chain (bytesText column tab_width) (lines (bytesText column tab_width) line_number (.text (s.flatMap utf8) none))
        (ms.map Prod.snd) =
      encodeStream (chain (strText column tab_width) (lines (strText column tab_width) line_number (.text s none))
        (ms.map Prod.fst)) := by
  rw [show s.flatMap utf8 = enc s from rfl, lines_code hs]
  exact chain_space hs ms hms _ (lines_good _ _ _ _ _ (show Big.MS.strLinebreaks ≠ [] by decide +kernel)
    (show [] ∉ Big.MS.strLinebreaks by decide +kernel))

/-- C154, with separators given, encoded too. -/
theorem C154_separators {s : List Char} (hs : Plain s) {separators : List (List Char)} (hne : separators ≠ [])
    (he : [] ∉ separators) (column tab_width line_number : Int)
    (ms : List (Modifier Char μ × Modifier UInt8 μ)) (hms : ∀ x ∈ ms, Encoded (∀ c ∈ s, c.toNat < 128) x.1 x.2) :
    chain (bytesText column tab_width)
        (lines (bytesText column tab_width) line_number (.text (s.flatMap utf8) (some (separators.map (List.flatMap utf8)))))
        (ms.map Prod.snd) =
      encodeStream (chain (strText column tab_width) (lines (strText column tab_width) line_number (.text s (some separators)))
        (ms.map Prod.fst)) := by
  have hu : usedSeparators (strText column tab_width) (some separators) = separators := by
    cases separators with
    | nil => exact absurd rfl hne
    | cons a l => rfl
  rw [show s.flatMap utf8 = enc s from rfl, show separators.map (List.flatMap utf8) = separators.map enc from rfl,
    lines_seps_code s hne he]
  exact chain_space hs ms hms _ (lines_good _ _ _ _ _ (by rw [hu]; exact hne) (by rw [hu]; exact he))

/-- C154: not so for other texts: a line separator U+2028 is a line break in the text but not in its encoding, and a no-break
space is stripped from the text but not from its encoding; and tabs are expanded to columns of characters in the text, to
columns of bytes in its encoding; and what is stripped by lines_strip with separators is so many columns, of characters or of
bytes. -/
theorem C154_counterexamples :
    ((lines (μ := Unit) (strText 1 8) 1 (.text ['a', '\u2028', 'b'] none)).1.map (fun p => p.2) = [['a'], ['b']] ∧
      (lines (μ := Unit) (bytesText 1 8) 1 (.text (['a', '\u2028', 'b'].flatMap utf8) none)).1.map (fun p => p.2) =
        [['a', '\u2028', 'b'].flatMap utf8]) ∧
    ((chain (strText 1 8) (lines (μ := Unit) (strText 1 8) 1 (.text ['a', '\u00a0'] none)) [.rstrip none]).1.map (fun p => p.2) =
        [['a']] ∧
      (chain (bytesText 1 8) (lines (μ := Unit) (bytesText 1 8) 1 (.text (['a', '\u00a0'].flatMap utf8) none)) [.rstrip none]).1.map
        (fun p => p.2) = [['a', '\u00a0'].flatMap utf8]) ∧
    ((chain (strText 1 4) (lines (μ := Unit) (strText 1 4) 1 (.text ['é', '\t', 'b'] none)) [.convertTabsToSpaces]).1.map
        (fun p => p.2) = [['é', ' ', ' ', ' ', 'b']] ∧
      (chain (bytesText 1 4) (lines (μ := Unit) (bytesText 1 4) 1 (.text (['é', '\t', 'b'].flatMap utf8) none))
        [.convertTabsToSpaces]).1.map (fun p => p.2) = [['é', ' ', ' ', 'b'].flatMap utf8]) ∧
    ((chain (strText 1 4) (lines (μ := Unit) (strText 1 4) 1 (.text ['é', 'b'] none)) [.strip (some [['é']])]).1.map
        (fun p => (p.1.columnNumber, p.2)) = [(2, ['b'])] ∧
      (chain (bytesText 1 4) (lines (μ := Unit) (bytesText 1 4) 1 (.text (['é', 'b'].flatMap utf8) none))
        [.strip (some [['é'].flatMap utf8])]).1.map (fun p => (p.1.columnNumber, p.2)) = [(3, ['b'].flatMap utf8)]) := by
  refine ⟨⟨?_, ?_⟩, ⟨?_, ?_⟩, ⟨?_, ?_⟩, ?_, ?_⟩ <;> decide +kernel

/-- Non-ASCII text, with a comment and a quoted string, indented and with an empty line; and the comment marker of two bytes. -/
example : Plain ['\t', 'é', '"', '§', '"', '§', 'ë', ' ', '\r', '\n', '\n', 'ü'] ∧
    [] ∉ [['§']] ∧
    (chain (strText 1 8) (lines (μ := Unit) (strText 1 8) 1
      (.text ['\t', 'é', '"', '§', '"', '§', 'ë', ' ', '\r', '\n', '\n', 'ü'] none))
      [.stripLineComments ⟨[['§']], [['"']], [], ['\\']⟩, .stripIndent, .filterEmptyLines]).1.map
        (fun p => (p.1.lineNumber, p.1.columnNumber, p.2)) =
      [(1, 9, ['é', '"', '§', '"']), (3, 1, ['ü'])] ∧
    (chain (bytesText 1 8) (lines (μ := Unit) (bytesText 1 8) 1
      (.text (['\t', 'é', '"', '§', '"', '§', 'ë', ' ', '\r', '\n', '\n', 'ü'].flatMap utf8) none))
      [.stripLineComments ⟨[[194, 167]], [[34]], [], [92]⟩, .stripIndent, .filterEmptyLines]).1.map
        (fun p => (p.1.lineNumber, p.1.columnNumber, p.2)) =
      [(1, 9, [195, 169, 34, 194, 167, 34]), (3, 1, [195, 188])] := by
  refine ⟨?_, by decide, by decide +kernel, by decide +kernel⟩
  unfold Plain
  decide +kernel

end Big.Lines
