import Verif.Wrap.Split
/-! # Lemmas on split_text_with_code: from characters to lines -/
namespace Big.Wrap

variable {α : Type} [DecidableEq α]

theorem linesOf_no_nl (nl : α) (s : List α) : ∀ l ∈ linesOf nl s, nl ∉ l := by
  induction s with
  | nil => simp [linesOf]
  | cons c s ih =>
    unfold linesOf
    by_cases h : c = nl
    · rw [if_pos h]; intro l hl
      rcases List.mem_cons.1 hl with h | h
      · subst h; simp
      · exact ih l h
    · rw [if_neg h]
      cases h1 : linesOf nl s with
      | nil => exact absurd h1 (linesOf_ne_nil _ _)
      | cons x xs =>
        rw [h1] at ih
        intro l hl
        rcases List.mem_cons.1 hl with h2 | h2
        · subst h2; have := ih x (by simp); simp [this]; exact fun h' => h h'.symm
        · exact ih l (by simp [h2])

theorem linesOf_spec (nl : α) (s : List α) :
    ∃ init last, linesOf nl s = init ++ [last] ∧ s = init.flatMap (· ++ [nl]) ++ last := by
  induction s with
  | nil => exact ⟨[], [], rfl, rfl⟩
  | cons c s ih =>
    obtain ⟨init, last, h1, h2⟩ := ih
    unfold linesOf
    by_cases h : c = nl
    · rw [if_pos h, h1]
      refine ⟨[] :: init, last, rfl, ?_⟩
      conv => lhs; rw [h2, h]
      simp
    · rw [if_neg h, h1]
      cases init with
      | nil =>
        simp only [List.flatMap_nil, List.nil_append] at h2
        subst h2; exact ⟨[], c :: s, rfl, rfl⟩
      | cons x init =>
        refine ⟨(c :: x) :: init, last, rfl, ?_⟩
        conv => lhs; rw [h2]
        simp

/-! ### the tokens of a line -/

/-- The tokens (leading whitespace and word) that are complete, and the whitespace and word at the end. -/
def scanLine (isSpace : α → Bool) : List α → List α → List α → List (List α × List α) × List α × List α
  | lead, word, [] => ([], lead, word)
  | lead, word, c :: s =>
    if isSpace c then
      if word = [] then scanLine isSpace (lead ++ [c]) [] s
      else ((lead, word) :: (scanLine isSpace [c] [] s).1, (scanLine isSpace [c] [] s).2)
    else scanLine isSpace lead (word ++ [c]) s

/-- All tokens of a line. -/
def lineToks (isSpace : α → Bool) (lead word line : List α) : List (List α × List α) :=
  let r := scanLine isSpace lead word line
  r.1 ++ if r.2.2 = [] then [] else [(r.2.1, r.2.2)]

theorem lineToks_nil (isSpace : α → Bool) (lead word : List α) :
    lineToks isSpace lead word [] = if word = [] then [] else [(lead, word)] := rfl

theorem lineToks_cons (isSpace : α → Bool) (lead word : List α) (c : α) (s : List α) :
    lineToks isSpace lead word (c :: s) =
      if isSpace c then
        if word = [] then lineToks isSpace (lead ++ [c]) [] s
        else (lead, word) :: lineToks isSpace [c] [] s
      else lineToks isSpace lead (word ++ [c]) s := by
  unfold lineToks
  simp only [scanLine]
  split
  · split <;> simp
  · rfl

theorem lineToks_words (isSpace : α → Bool) (lead word line : List α) :
    (lineToks isSpace lead word line).map (·.2) = splitWords isSpace word line := by
  induction line generalizing lead word with
  | nil => rw [lineToks_nil]; unfold splitWords; split <;> rfl
  | cons c s ih =>
    rw [lineToks_cons]; unfold splitWords
    split
    · split
      · rw [ih]; simp
      · simp [ih]
    · exact ih _ _

theorem lineToks_good (isSpace : α → Bool) (lead word line : List α) (h1 : ∀ c ∈ lead, isSpace c = true)
    (h2 : ∀ c ∈ word, isSpace c = false) :
    ∀ t ∈ lineToks isSpace lead word line,
      (∀ c ∈ t.1, isSpace c = true) ∧ t.2 ≠ [] ∧ ∀ c ∈ t.2, isSpace c = false := by
  induction line generalizing lead word with
  | nil =>
    rw [lineToks_nil]; split
    · simp
    · rename_i h; intro t ht; simp only [List.mem_singleton] at ht; subst ht; exact ⟨h1, h, h2⟩
  | cons c s ih =>
    rw [lineToks_cons]
    by_cases hc : isSpace c = true
    · rw [if_pos hc]
      by_cases hw : word = []
      · rw [if_pos hw]
        exact ih _ _ (by intro x hx; rcases List.mem_append.1 hx with h | h
                         · exact h1 x h
                         · simp only [List.mem_singleton] at h; rw [h]; exact hc) (by simp)
      · rw [if_neg hw]
        intro t ht
        rcases List.mem_cons.1 ht with h | h
        · subst h; exact ⟨h1, hw, h2⟩
        · exact ih [c] [] (by simpa using hc) (by simp) t h
    · rw [if_neg hc]
      exact ih _ _ h1 (by intro x hx; rcases List.mem_append.1 hx with h | h
                          · exact h2 x h
                          · simp only [List.mem_singleton] at h; rw [h]; simpa using hc)

omit [DecidableEq α] in
theorem dropWhile_nil_iff (p : α → Bool) (s : List α) : s.dropWhile p = [] ↔ ∀ c ∈ s, p c = true := by
  induction s with
  | nil => simp
  | cons c s ih =>
    rw [List.dropWhile_cons]
    by_cases h : p c = true
    · rw [if_pos h, ih]; simp [h]
    · rw [if_neg h]; simp [h]

omit [DecidableEq α] in
theorem rstrip_of_all {isSpace : α → Bool} {s : List α} (h : ∀ c ∈ s, isSpace c = true) :
    rstrip isSpace s = [] := by
  unfold rstrip
  rw [List.reverse_eq_nil_iff, dropWhile_nil_iff]
  simpa using h

omit [DecidableEq α] in
theorem rstrip_append_of_ne {isSpace : α → Bool} (a : List α) {b : List α} (h : rstrip isSpace b ≠ []) :
    rstrip isSpace (a ++ b) = a ++ rstrip isSpace b := by
  unfold rstrip at *
  rw [List.reverse_append, List.dropWhile_append, if_neg, List.reverse_append, List.reverse_reverse]
  intro h'
  apply h
  rw [List.isEmpty_iff] at h'
  rw [h']; rfl

omit [DecidableEq α] in
theorem rstrip_append_of_last {isSpace : α → Bool} (a w b : List α) (hw : w ≠ []) (h : ∀ c ∈ w, isSpace c = false)
    (hb : ∀ c ∈ b, isSpace c = true) : rstrip isSpace (a ++ w ++ b) = a ++ w := by
  have : rstrip isSpace (w ++ b) = w := by
    unfold rstrip
    rw [List.reverse_append, List.dropWhile_append_of_pos (by simpa using hb)]
    rcases List.eq_nil_or_concat w with rfl | ⟨w', c, rfl⟩
    · exact absurd rfl hw
    · have := h c (by simp)
      simp [List.dropWhile_cons, this]
  rw [List.append_assoc, rstrip_append_of_ne a (by rw [this]; exact hw), this]

omit [DecidableEq α] in
theorem rstrip_append (isSpace : α → Bool) (a b : List α) :
    rstrip isSpace (a ++ b) = if rstrip isSpace b = [] then rstrip isSpace a else a ++ rstrip isSpace b := by
  by_cases h : rstrip isSpace b = []
  · rw [if_pos h]
    unfold rstrip at h ⊢
    rw [List.reverse_eq_nil_iff, dropWhile_nil_iff] at h
    rw [List.reverse_append, List.dropWhile_append_of_pos h]
  · rw [if_neg h, rstrip_append_of_ne a h]

omit [DecidableEq α] in
theorem rstrip_nonspace {isSpace : α → Bool} {a w : List α} (h : ∀ c ∈ w, isSpace c = false) (hw : w ≠ []) :
    rstrip isSpace (a ++ w) = a ++ w := by
  have := rstrip_append_of_last a w [] hw h (by simp)
  simpa using this

theorem lineToks_flatten (isSpace : α → Bool) (lead word line : List α) (h1 : ∀ c ∈ lead, isSpace c = true)
    (h2 : ∀ c ∈ word, isSpace c = false) :
    ((lineToks isSpace lead word line).flatMap (fun t => t.1 ++ t.2)) = rstrip isSpace (lead ++ word ++ line) := by
  induction line generalizing lead word with
  | nil =>
    rw [lineToks_nil, List.append_nil]
    split
    · rename_i h; subst h; rw [List.append_nil, rstrip_of_all h1]; rfl
    · rename_i h; rw [rstrip_nonspace h2 h]; simp
  | cons c s ih =>
    rw [lineToks_cons]
    by_cases hc : isSpace c = true
    · rw [if_pos hc]
      by_cases hw : word = []
      · rw [if_pos hw, ih _ _ (by intro x hx; rcases List.mem_append.1 hx with h | h
                                  · exact h1 x h
                                  · simp only [List.mem_singleton] at h; rw [h]; exact hc) (by simp)]
        subst hw; simp
      · rw [if_neg hw, List.flatMap_cons, ih [c] [] (by simpa using hc) (by simp)]
        simp only [List.append_nil, List.singleton_append]
        rw [rstrip_append (a := lead ++ word)]
        split
        · rename_i h; rw [h, rstrip_nonspace h2 hw]; simp
        · rfl
    · rw [if_neg hc, ih _ _ h1 (by intro x hx; rcases List.mem_append.1 hx with h | h
                                   · exact h2 x h
                                   · simp only [List.mem_singleton] at h; rw [h]; simpa using hc)]
      simp

/-- The first token: its whitespace is what the line starts with. -/
theorem lineToks_head (isSpace : α → Bool) (lead line : List α) (h1 : ∀ c ∈ lead, isSpace c = true) :
    (line.all isSpace = true ∧ lineToks isSpace lead [] line = []) ∨
    (line.all isSpace = false ∧
      ∃ w ts, lineToks isSpace lead [] line = (lead ++ line.takeWhile isSpace, w) :: ts) := by
  induction line generalizing lead with
  | nil => exact .inl ⟨rfl, rfl⟩
  | cons c s ih =>
    rw [lineToks_cons]
    by_cases hc : isSpace c = true
    · rw [if_pos hc, if_pos rfl]
      rcases ih (lead ++ [c]) (by intro x hx; rcases List.mem_append.1 hx with h | h
                                  · exact h1 x h
                                  · simp only [List.mem_singleton] at h; rw [h]; exact hc) with ⟨h2, h3⟩ | ⟨h2, w, ts, h3⟩
      · exact .inl ⟨by simp [hc] at h2 ⊢; exact h2, h3⟩
      · refine .inr ⟨by simp [hc] at h2 ⊢; exact h2, w, ts, ?_⟩
        rw [h3, List.takeWhile_cons, if_pos hc]; simp
    · rw [if_neg hc]
      right
      refine ⟨by simp [hc], ?_⟩
      rw [List.takeWhile_cons, if_neg hc, List.append_nil]
      -- the word is not empty
      have : ∀ (s : List α) (word : List α), word ≠ [] →
          ∃ w ts, lineToks isSpace lead word s = (lead, w) :: ts := by
        intro s
        induction s with
        | nil => intro word hw; rw [lineToks_nil, if_neg hw]; exact ⟨_, _, rfl⟩
        | cons d s ih =>
          intro word hw
          rw [lineToks_cons]
          by_cases hd : isSpace d = true
          · rw [if_pos hd, if_neg hw]; exact ⟨_, _, rfl⟩
          · rw [if_neg hd]; exact ih _ (by simp)
      exact this s _ (by simp)

/-! ### calls -/

theorem call_with (E : Env α) (o : Opt) (m : Splitter α) (x y l w : List α) :
    call E o { m with leading := x, word := y } l w =
      (call E o m l w).map (fun r => { r with leading := x, word := y }) := by
  have hin : ∀ (m : Splitter α), inCodeLine E o { m with leading := x, word := y } l w =
      (inCodeLine E o m l w).map (fun r => { r with leading := x, word := y }) := by
    intro m
    unfold inCodeLine lineStartNewline
    dsimp only
    split
    · split <;> rfl
    · cases codeLeading E o m.col l <;> rfl
  have hcs : ∀ (m : Splitter α), codeLineStart E o { m with leading := x, word := y } l w =
      (codeLineStart E o m l w).map (fun r => { r with leading := x, word := y }) := by
    intro m; unfold codeLineStart; rw [← hin]
  have htl : ∀ (m : Splitter α), inTextLine E { m with leading := x, word := y } l w =
      (inTextLine E m l w).map (fun r => { r with leading := x, word := y }) := by
    intro m; unfold inTextLine; split <;> rfl
  have hts : ∀ (m : Splitter α), textLineStart E { m with leading := x, word := y } l w =
      (textLineStart E m l w).map (fun r => { r with leading := x, word := y }) := by
    intro m; unfold textLineStart; rw [← htl]
  have hst : ∀ (m : Splitter α), startText E { m with leading := x, word := y } l w =
      (startText E m l w).map (fun r => { r with leading := x, word := y }) := by
    intro m; unfold startText; rw [← hts]; dsimp only; split <;> rfl
  have hsc : ∀ (m : Splitter α), startCode E o { m with leading := x, word := y } l w =
      (startCode E o m l w).map (fun r => { r with leading := x, word := y }) := by
    intro m; unfold startCode; dsimp only
    split
    · split
      · rfl
      · rw [← hcs]
    · rw [← hcs]
  have hl : ∀ (m : Splitter α), lineStart E o { m with leading := x, word := y } l w =
      (lineStart E o m l w).map (fun r => { r with leading := x, word := y }) := by
    intro m; unfold lineStart lineStartNewline; dsimp only
    split
    · split <;> rfl
    · split
      · cases indentCol E o 0 l with
        | error e => rfl
        | ok col =>
          dsimp only
          split
          · exact hsc m
          · exact hst m
      · exact hst m
  have hp : ∀ (m : Splitter α), paragraphStart E o { m with leading := x, word := y } l w =
      (paragraphStart E o m l w).map (fun r => { r with leading := x, word := y }) := by
    intro m; unfold paragraphStart; dsimp only
    split
    · rfl
    · rw [← hl]; split <;> rfl
  obtain ⟨a, b, c, d, e, f, st⟩ := m
  cases st
  · exact hp _
  · exact hl _
  · exact hts _
  · exact htl _
  · exact hcs _
  · exact hin _

theorem call_fields (E : Env α) (o : Opt) (m m' : Splitter α) (l w : List α) (h : call E o m l w = .ok m') :
    m'.leading = m.leading ∧ m'.word = m.word := by
  have := call_with E o m m.leading m.word l w
  have hm : { m with leading := m.leading, word := m.word } = m := rfl
  rw [hm, h] at this
  simp only [Except.map, Except.ok.injEq] at this
  exact ⟨by rw [this], by rw [this]⟩

/-- The calls for a list of tokens. -/
def callAll (E : Env α) (o : Opt) : Splitter α → List (List α × List α) → Except Err (Splitter α)
  | m, [] => .ok m
  | m, (l, w) :: ts =>
    match call E o m l w with
    | .error e => .error e
    | .ok m' => callAll E o m' ts

theorem callAll_append (E : Env α) (o : Opt) (m : Splitter α) (a b : List (List α × List α)) :
    callAll E o m (a ++ b) = match callAll E o m a with
      | .error e => .error e
      | .ok m' => callAll E o m' b := by
  induction a generalizing m with
  | nil => rfl
  | cons t a ih =>
    obtain ⟨l, w⟩ := t
    simp only [List.cons_append, callAll]
    cases call E o m l w with
    | error e => rfl
    | ok m' => exact ih m'

theorem callAll_fields (E : Env α) (o : Opt) (ts : List (List α × List α)) (m m' : Splitter α)
    (h : callAll E o m ts = .ok m') : m'.leading = m.leading ∧ m'.word = m.word := by
  induction ts generalizing m with
  | nil => simp only [callAll, Except.ok.injEq] at h; subst h; exact ⟨rfl, rfl⟩
  | cons t ts ih =>
    obtain ⟨l, w⟩ := t
    simp only [callAll] at h
    cases h1 : call E o m l w with
    | error e => rw [h1] at h; simp at h
    | ok m1 =>
      rw [h1] at h
      have h2 := call_fields E o m m1 l w h1
      have h3 := ih m1 h
      exact ⟨h3.1.trans h2.1, h3.2.trans h2.2⟩

theorem writeAll_append (E : Env α) (o : Opt) (m : Splitter α) (a b : List α) :
    writeAll E o m (a ++ b) = match writeAll E o m a with
      | .error e => .error e
      | .ok m' => writeAll E o m' b := by
  induction a generalizing m with
  | nil => rfl
  | cons c a ih =>
    simp only [List.cons_append, writeAll]
    cases write E o m c with
    | error e => rfl
    | ok m' => exact ih m'

theorem writeAll_line (E : Env α) (o : Opt) (line : List α) :
    ∀ (b : Splitter α) (lead word : List α), E.nl ∉ line → b.leading = [] → b.word = [] →
      writeAll E o { b with leading := lead, word := word } line =
        match callAll E o b (scanLine E.isSpace lead word line).1 with
        | .error e => .error e
        | .ok b' => .ok { b' with leading := (scanLine E.isSpace lead word line).2.1,
                                  word := (scanLine E.isSpace lead word line).2.2 } := by
  induction line with
  | nil => intro b lead word _ _ _; rfl
  | cons c s ih =>
    intro b lead word hn hb1 hb2
    simp only [List.mem_cons, not_or] at hn
    unfold writeAll write scanLine
    dsimp only
    by_cases hc : E.isSpace c = true
    · rw [if_neg (by rw [hc]; simp), if_pos hc]
      by_cases hw : word = []
      · rw [if_neg (by simpa using hw), if_neg (fun h => hn.1 h.symm), if_pos hw]
        subst hw
        exact ih b (lead ++ [c]) [] hn.2 hb1 hb2
      · rw [if_pos hw, if_neg hw]
        have hb : ({ b with word := [], leading := [] } : Splitter α) = b := by
          obtain ⟨_, _, _, _, _, _, _⟩ := b
          simp only at hb1 hb2; subst hb1 hb2; rfl
        rw [hb]
        simp only [callAll]
        cases h1 : call E o b lead word with
        | error e => rfl
        | ok b1 =>
          have h2 := call_fields E o b b1 lead word h1
          dsimp only
          rw [if_neg (fun h => hn.1 h.symm)]
          have := ih b1 [c] [] hn.2 (h2.1.trans hb1) (h2.2.trans hb2)
          have hb' : ({ b1 with leading := [c] } : Splitter α) = { b1 with leading := [c], word := [] } := by
            rw [← h2.2.trans hb2]
          rw [hb']
          exact this
    · rw [if_pos (by simpa using hc), if_neg hc]
      exact ih b lead (word ++ [c]) hn.2 hb1 hb2

theorem call_newline (E : Env α) (o : Opt) (m : Splitter α) (l : List α) : call E o m l [E.nl] = call E o m [] [E.nl] := by
  unfold call paragraphStart lineStart textLineStart codeLineStart inTextLine inCodeLine
  cases m.st <;> simp

/-- A line and its newline. -/
theorem writeAll_line_nl (E : Env α) (o : Opt) (hnl : E.isSpace E.nl = true) (line : List α) (b : Splitter α)
    (hn : E.nl ∉ line) (h1 : b.leading = []) (h2 : b.word = []) :
    writeAll E o b (line ++ [E.nl]) = callAll E o b (lineToks E.isSpace [] [] line ++ [([], [E.nl])]) := by
  have hb : ({ b with leading := [], word := [] } : Splitter α) = b := by
    obtain ⟨_, _, _, _, _, _, _⟩ := b
    simp only at h1 h2; subst h1 h2; rfl
  rw [writeAll_append]
  have := writeAll_line E o line b [] [] hn h1 h2
  rw [hb] at this
  rw [this]
  unfold lineToks
  rw [callAll_append, callAll_append]
  cases h3 : callAll E o b (scanLine E.isSpace [] [] line).1 with
  | error e => rfl
  | ok b' =>
    have h4 := callAll_fields E o _ _ _ h3
    have hb' : ∀ x, ({ b' with leading := x, word := [] } : Splitter α) = { b' with leading := x } := by
      intro x; rw [← h4.2.trans h2]
    have hb'' : ({ b' with leading := [] } : Splitter α) = b' := by
      obtain ⟨_, _, _, _, _, _, _⟩ := b'
      have := h4.1.trans h1; simp only at this; subst this; rfl
    dsimp only
    unfold writeAll write
    dsimp only
    rw [if_neg (by rw [hnl]; simp)]
    by_cases hw : (scanLine E.isSpace [] [] line).2.2 = []
    · rw [if_neg (by simpa using hw), if_pos rfl, if_pos hw]
      simp only [callAll, writeAll]
      rw [call_newline, hw, hb', hb'']
      cases call E o b' [] [E.nl] <;> rfl
    · rw [if_pos hw, if_neg hw]
      simp only [callAll, writeAll]
      have : ({ b' with word := [], leading := [] } : Splitter α) = b' := by
        rw [← hb'']; rw [← h4.2.trans h2]
      rw [this]
      cases call E o b' (scanLine E.isSpace [] [] line).2.1 (scanLine E.isSpace [] [] line).2.2 with
      | error e => rfl
      | ok b'' => simp only [if_true]; cases call E o b'' [] [E.nl] <;> rfl

/-- The last line and `close`. -/
theorem writeAll_last (E : Env α) (o : Opt) (line : List α) (b : Splitter α)
    (hn : E.nl ∉ line) (h1 : b.leading = []) (h2 : b.word = []) :
    (writeAll E o b line).bind (fun m => (close E o m).map (·.words)) =
      (callAll E o b (lineToks E.isSpace [] [] line)).map (·.words) := by
  have hb : ({ b with leading := [], word := [] } : Splitter α) = b := by
    obtain ⟨_, _, _, _, _, _, _⟩ := b
    simp only at h1 h2; subst h1 h2; rfl
  have := writeAll_line E o line b [] [] hn h1 h2
  rw [hb] at this
  rw [this]
  unfold lineToks
  rw [callAll_append]
  cases h3 : callAll E o b (scanLine E.isSpace [] [] line).1 with
  | error e => rfl
  | ok b' =>
    dsimp only [Except.bind]
    unfold close
    dsimp only
    by_cases hw : (scanLine E.isSpace [] [] line).2.2 = []
    · rw [if_neg (by simpa using hw), if_pos hw]; rfl
    · rw [if_pos hw, if_neg hw, call_with]
      simp only [callAll]
      cases call E o b' (scanLine E.isSpace [] [] line).2.1 (scanLine E.isSpace [] [] line).2.2 <;> rfl

end Big.Wrap
