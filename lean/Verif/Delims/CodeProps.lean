import Verif.Delims.Code
/-! # C155: split_delimiters on text encoded in UTF-8 -/
namespace Big.SD
open Big.MS (utf8 CacheOK strCache bytesCache)
open Big.Lines (enc enc_inj enc_nil)

variable {ds : Delims Char}

theorem nodup_inj : ∀ {ds : Delims UInt8}, (ds.map (·.1)).Nodup → ∀ {L L' : List (List UInt8 × Delim UInt8)},
    (∀ kd ∈ L, kd ∈ ds) → (∀ kd ∈ L', kd ∈ ds) → L.map (·.1) = L'.map (·.1) → L = L' := by
  intro ds hd L
  induction L with
  | nil =>
    intro L' _ _ h
    cases L' with
    | nil => rfl
    | cons => simp at h
  | cons x L ih =>
    intro L' h1 h2 h
    cases L' with
    | nil => simp at h
    | cons y L' =>
      simp only [List.map_cons, List.cons.injEq] at h
      have hxy : x = y := by
        have hx := h1 x (by simp)
        have hy := h2 y (by simp)
        have key : ∀ (l : Delims UInt8), (l.map (·.1)).Nodup → x ∈ l → y ∈ l → x = y := by
          intro l
          induction l with
          | nil => intro _ hx; simp at hx
          | cons z l ihl =>
            intro hn hx hy
            simp only [List.map_cons, List.nodup_cons] at hn
            have hnx : ∀ w ∈ l, w.1 ≠ z.1 := fun w hw he => hn.1 (List.mem_map.2 ⟨w, hw, he⟩)
            rcases List.mem_cons.1 hx with rfl | hx2
            · rcases List.mem_cons.1 hy with rfl | hy
              · rfl
              · exact absurd h.1.symm (hnx y hy)
            · rcases List.mem_cons.1 hy with rfl | hy
              · exact absurd h.1 (hnx x hx2)
              · exact ihl hn.2 hx2 hy
        exact key ds hd hx hy
      subst hxy
      rw [ih (fun kd hk => h1 kd (by simp [hk])) (fun kd hk => h2 kd (by simp [hk])) h.2]

/-- C155: with delimiters and escapes that are single ASCII characters, and a text whose only line breaks are
`\n` and `\r` (or any text, if all delimiters are multiline), split_delimiters of the text encoded in
UTF-8, with all other arguments encoded, yields what it yields for the text, encoded, and raises what it raises. -/
theorem C155_utf8 (h : OK pyStr ds) (ha : AsciiSingles ds) (s : List Char)
    (hs : (∀ kd ∈ ds, kd.2.multiline = true) ∨ ∀ c ∈ s, Big.MS.PyStr.isBreak c = true → c = '\n' ∨ c = '\r')
    (state : List (List Char)) :
    splitDelimiters pyBytes (enc s) (encodeDelims ds) (state.map enc) =
      (splitDelimiters pyStr s ds state).map encodeRun := by
  have hb : [pyBytes.backslash] ∈ openers (encodeDelims ds) ↔ [pyStr.backslash] ∈ openers ds := by
    show [92] ∈ _ ↔ ['\\'] ∈ _
    rw [← enc_backslash, openers_code, mem_map_enc]
  have hiff : (∃ r, splitDelimiters pyBytes (enc s) (encodeDelims ds) (state.map enc) = .ok r) ↔
      ∃ r, splitDelimiters pyStr s ds state = .ok r := by
    rw [(C48_raises_iff (ok_code h) _ _).2, (C48_raises_iff h _ _).2, hb, disjoint_code]
    refine and_congr (by simp [encodeDelims]) (and_congr Iff.rfl (and_congr Iff.rfl (and_congr ?_ ?_)))
    · rw [openers_code]
      simp only [List.mem_map, forall_exists_index, and_imp, forall_apply_eq_imp_iff₂, enc_inj, exists_eq_right]
    · rw [← List.map_dropLast]
      constructor
      · intro hh k hk d hd
        exact hh (enc k) (List.mem_map.2 ⟨k, hk, rfl⟩) (encodeDelim d) (mem_encodeDelims.2 ⟨_, hd, rfl⟩)
      · intro hh k' hk' d' hd'
        obtain ⟨k, hk, rfl⟩ := List.mem_map.1 hk'
        obtain ⟨⟨k2, d⟩, hd, he⟩ := mem_encodeDelims.1 hd'
        simp only [Prod.mk.injEq, enc_inj] at he
        obtain ⟨rfl, rfl⟩ := he
        exact hh k2 hk d hd
  cases hr : splitDelimiters pyStr s ds state with
  | error e =>
    have he := (C48_raises_iff h s state).1 e hr
    cases hr' : splitDelimiters pyBytes (enc s) (encodeDelims ds) (state.map enc) with
    | error e' =>
      rw [(C48_raises_iff (ok_code h) _ _).1 e' hr', he]; rfl
    | ok r' =>
      obtain ⟨r, hr2⟩ := hiff.1 ⟨r', hr'⟩
      rw [hr] at hr2; cases hr2
  | ok r =>
    obtain ⟨r', hr'⟩ := hiff.2 ⟨r, hr⟩
    rw [hr']
    have a1 : ∀ kd ∈ ds, kd.1.length = 1 ∧ kd.2.close.length = 1 ∧ kd.2.escape.length ≤ 1 := by
      intro kd hk
      obtain ⟨⟨c, _, h1⟩, ⟨c2, _, h2⟩, h3⟩ := ha kd hk
      refine ⟨by rw [h1]; rfl, by rw [h2]; rfl, ?_⟩
      rcases h3 with h3 | ⟨c3, _, h3⟩ <;> rw [h3] <;> simp
    have encl : ∀ c : Char, c.toNat < 128 → (enc [c]).length = 1 := by
      intro c hc
      have : enc [c] = [c.toNat.toUInt8] := by simpa [enc] using (Big.Lines.ascii_byte hc).1
      rw [this]; rfl
    have a2 : ∀ kd ∈ encodeDelims ds, kd.1.length = 1 ∧ kd.2.close.length = 1 ∧ kd.2.escape.length ≤ 1 := by
      intro kd' hk'
      obtain ⟨kd, hk, rfl⟩ := mem_encodeDelims.1 hk'
      obtain ⟨⟨c, hc, h1⟩, ⟨c2, hc2, h2⟩, h3⟩ := ha kd hk
      refine ⟨by rw [h1]; exact encl c hc, by simp only [encodeDelim]; rw [h2]; exact encl c2 hc2, ?_⟩
      simp only [encodeDelim]
      rcases h3 with h3 | ⟨c3, hc3, h3⟩ <;> rw [h3]
      · simp [enc_nil]
      · rw [encl c3 hc3]; exact Nat.le_refl 1
    have n1 : ∀ n ∈ pyStr.newlines, n.length = 1 := by
      intro n hn
      have := List.all_eq_true.1 str_newlines n hn
      simp only [Bool.and_eq_true, beq_iff_eq] at this
      exact this.1
    have n2 : ∀ n ∈ pyBytes.newlines, n.length = 1 := by rw [bytes_newlines]; decide
    obtain ⟨L, hL1, hL2, hL3⟩ :=
      C48_single_character_parser Big.MS.C72_reversed_tables.1 h n1 a1 s state r hr
    obtain ⟨L', hL1', hL2', hL3'⟩ :=
      C48_single_character_parser Big.MS.C72_reversed_tables.2 (ok_code h) n2 a2 _ _ r' hr'
    have hLL : L' = encodeDelims L := by
      refine nodup_inj (ok_code h).nodup hL2' ?_ ?_
      · intro kd' hk'
        obtain ⟨kd, hk, rfl⟩ := mem_encodeDelims.1 hk'
        exact mem_encodeDelims.2 ⟨kd, hL2 kd hk, rfl⟩
      · rw [hL1']
        have : (encodeDelims L).map (·.1) = (L.map (·.1)).map enc := openers_code
        rw [this, hL1, List.map_reverse]
    have := parse_code ha h s hs L hL2 false []
    rw [enc_nil] at this
    rw [hL3', hL3, hLL, this]
    rfl

/-- C155: with U+2028 between quote marks the str call raises SyntaxError, the bytes call does not. -/
theorem C155_counterexample :
    splitDelimiters pyStr ['"', '\u2028', '"'] defaultDelims [] = .ok ([([], ['"'], [])], some .syntaxError) ∧
    splitDelimiters pyBytes (enc ['"', '\u2028', '"']) (encodeDelims defaultDelims) [] =
      .ok ([([], [34], []), ([226, 128, 168], [], [34])], none) :=
  ⟨by decide +kernel, by decide +kernel⟩

/-- C155: with a delimiter that is not ASCII the bytes call can close too early: an escaped delimiter of two bytes makes
it split again, and because the ignored `(` was not counted, at the escaped delimiter. -/
theorem C155_counterexample_not_ascii :
    splitDelimiters pyStr ['«', '(', '\\', '»', '»'] [(['«'], ⟨['»'], ['\\'], true, true⟩), (['('], plainDelim ")")] [] =
      .ok ([([], ['«'], []), (['(', '\\', '»'], [], ['»'])], none) ∧
    splitDelimiters pyBytes (enc ['«', '(', '\\', '»', '»'])
        (encodeDelims [(['«'], ⟨['»'], ['\\'], true, true⟩), (['('], plainDelim ")")]) [] =
      .ok ([([], [194, 171], []), ([40, 92, 194], [], [194, 187])], some .syntaxError) :=
  ⟨by decide +kernel, by decide +kernel⟩

/-- The hypotheses, for the default delimiters. -/
theorem default_ok_py : OK pyStr defaultDelims where
  nodup := by decide
  made := by
    intro kd hk
    refine ⟨kd.2.close, kd.2.escape, kd.2.multiline, kd.2.quoting, ?_⟩
    simp only [defaultDelims, List.mem_cons, List.not_mem_nil, or_false] at hk
    rcases hk with rfl | rfl | rfl | rfl | rfl <;> rfl
  noEmpty := by decide +kernel

theorem default_ascii : AsciiSingles defaultDelims := by
  intro kd hk
  simp only [defaultDelims, List.mem_cons, List.not_mem_nil, or_false] at hk
  rcases hk with rfl | rfl | rfl | rfl | rfl
  all_goals
    refine ⟨⟨_, ?_, rfl⟩, ⟨_, ?_, rfl⟩, ?_⟩
    · decide
    · decide
    · first
      | exact .inl rfl
      | exact .inr ⟨_, by decide, rfl⟩

/-- An escaped character that is not ASCII, between quote marks, and a line break outside. -/
example : OK pyStr defaultDelims ∧ AsciiSingles defaultDelims ∧
    (∀ c ∈ ['ë', '(', '\n', '"', '\\', 'ë', '"', ')'], Big.MS.PyStr.isBreak c = true → c = '\n' ∨ c = '\r') ∧
    splitDelimiters pyStr ['ë', '(', '\n', '"', '\\', 'ë', '"', ')'] defaultDelims [] =
      .ok ([(['ë'], ['('], []), (['\n'], ['"'], []), (['\\', 'ë'], [], ['"']), ([], [], [')'])], none) ∧
    splitDelimiters pyBytes (enc ['ë', '(', '\n', '"', '\\', 'ë', '"', ')']) (encodeDelims defaultDelims) [] =
      .ok ([([195, 171], [40], []), ([10], [34], []), ([92, 195, 171], [], [34]), ([], [], [41])], none) :=
  ⟨default_ok_py, default_ascii, by decide +kernel, by decide +kernel, by decide +kernel⟩

end Big.SD
