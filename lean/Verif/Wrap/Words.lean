/-!
# wrap_words (big/text.py:3703-3785)

A string is a list of characters. The type checks (str against bytes) are not modelled.
-/
namespace Big.Wrap

variable {α : Type} [DecidableEq α]

/-- Exceptions. For text.py. -/
inductive Err where
  | valueError | runtimeError | assertionError | overflowError | zeroDivisionError
  deriving DecidableEq, Repr

/-- The characters that `wrap_words`, `split_text_with_code` and `merge_columns` know about:
`isSpace` is `isspace()` of one character, `ends` says whether it is one of `. ? !`. For text.py:3740-3781. -/
structure Env (α : Type) where
  nl : α
  sp : α
  tab : α
  isSpace : α → Bool
  ends : α → Bool

/-- `word.isspace()`. For text.py:3740-3781. -/
def isSpaceWord (E : Env α) (w : List α) : Bool := !w.isEmpty && w.all E.isSpace

/-- `s.endswith(('.', '?', '!'))`. For text.py:3740-3781. -/
def endsSentence (E : Env α) (w : List α) : Bool := w.getLast?.any E.ends

/-- The loop of wrap_words (text.py:3740-3781): the list `text`, given `two_spaces`, `margin`, `col` and
`lastword`. -/
def wrapLoop (E : Env α) (two : Bool) (margin : Int) : Nat → List α → List (List α) → List (List α)
  | _, _, [] => []
  | col, lastword, word :: words =>
    if isSpaceWord E word then word :: wrapLoop E two margin 0 word words
    else
      let space := if two && endsSentence E lastword then [E.sp, E.sp] else [E.sp]
      let lenSpace := if two && endsSentence E lastword then 2 else 1
      if ((word.length + lenSpace + col : Nat) : Int) > margin then
        if col ≠ 0 then [E.nl] :: word :: wrapLoop E two margin word.length word words
        else word :: wrapLoop E two margin word.length word words
      else if col ≠ 0 then space :: word :: wrapLoop E two margin (col + lenSpace + word.length) word words
      else word :: wrapLoop E two margin word.length word words

/-- `wrap_words(words, margin, two_spaces=...)` (text.py:3703-3785). The first word replaces `two_spaces`
by a string of two spaces, which is true (text.py:3746, 3752). -/
def wrapWords (E : Env α) (words : List (List α)) (margin : Int) (_two_spaces : Bool) : Except Err (List α) :=
  match words with
  | [] => .error .valueError
  | words => .ok (wrapLoop E true margin 0 [] words).flatten

/-! ## Specification -/

/-- What comes after the last newline of `t`. -/
def lastLine (nl : α) (t : List α) : List α := (t.reverse.takeWhile (· ≠ nl)).reverse

/-- The lines of `t`: split at each newline. -/
def linesOf (nl : α) : List α → List (List α)
  | [] => [[]]
  | c :: s =>
    if c = nl then [] :: linesOf nl s
    else match linesOf nl s with
      | [] => [[c]]
      | l :: ls => (c :: l) :: ls

/-- The text of words `words`, with `seps[i]` before `words[i]`. -/
def weave (seps words : List (List α)) : List α := (List.zipWith (· ++ ·) seps words).flatten

/-- What should be between `prev` and `word`, when `t` is the text up to and with `prev`: nothing beside an
element of whitespace or at the start of a line; else one space, or two after the end of a sentence, if
the word then fits on the line; else a newline. -/
def gap (E : Env α) (margin : Int) (t prev word : List α) : List α :=
  let space := if endsSentence E prev then [E.sp, E.sp] else [E.sp]
  if isSpaceWord E prev ∨ isSpaceWord E word ∨ lastLine E.nl t = [] then []
  else if ((lastLine E.nl t ++ space ++ word).length : Int) ≤ margin then space
  else [E.nl]

/-- The words that wrap_words is made for: no newline in them, or only newlines. -/
def Plain (E : Env α) (words : List (List α)) : Prop :=
  ∀ w ∈ words, (E.nl ∉ w ∧ isSpaceWord E w = false) ∨ (w ≠ [] ∧ ∀ c ∈ w, c = E.nl)

/-! ## Lemmas -/

theorem linesOf_ne_nil (nl : α) (s : List α) : linesOf nl s ≠ [] := by
  cases s with
  | nil => simp [linesOf]
  | cons c s =>
    unfold linesOf
    split
    · simp
    · split <;> simp

theorem linesOf_append_nl (nl : α) (a s : List α) (h : nl ∉ a) :
    linesOf nl (a ++ nl :: s) = a :: linesOf nl s := by
  induction a with
  | nil => simp [linesOf]
  | cons c a ih =>
    simp only [List.mem_cons, not_or] at h
    simp only [List.cons_append, linesOf]
    rw [if_neg (fun h' => h.1 h'.symm), ih h.2]

theorem linesOf_of_not_mem (nl : α) (a : List α) (h : nl ∉ a) : linesOf nl a = [a] := by
  induction a with
  | nil => rfl
  | cons c a ih =>
    simp only [List.mem_cons, not_or] at h
    simp only [linesOf]
    rw [if_neg (fun h' => h.1 h'.symm), ih h.2]

theorem lastLine_of_not_mem (nl : α) (a t : List α) (h : nl ∉ a) :
    lastLine nl (t ++ a) = lastLine nl t ++ a := by
  unfold lastLine
  rw [List.reverse_append, List.takeWhile_append_of_pos, List.reverse_append, List.reverse_reverse]
  intro x hx
  simp only [ne_eq, decide_not, Bool.not_eq_eq_eq_not, Bool.not_true, decide_eq_false_iff_not]
  rintro rfl
  exact h (by simpa using hx)

theorem lastLine_nl (nl : α) (t : List α) : lastLine nl (t ++ [nl]) = [] := by
  simp [lastLine]

theorem lastLine_allNl (nl : α) (t w : List α) (h0 : w ≠ []) (h : ∀ c ∈ w, c = nl) :
    lastLine nl (t ++ w) = [] := by
  rcases List.eq_nil_or_concat w with rfl | ⟨w', c, rfl⟩
  · exact absurd rfl h0
  · have : c = nl := h c (by simp)
    subst this
    rw [List.concat_eq_append, ← List.append_assoc]; exact lastLine_nl _ _

theorem lines_allNl (nl : α) (cur w t : List α) (hcur : nl ∉ cur) (h : ∀ c ∈ w, c = nl) (h0 : w ≠ []) :
    ∀ l ∈ linesOf nl (cur ++ (w ++ t)), l = cur ∨ l = [] ∨ l ∈ linesOf nl t := by
  induction w generalizing cur with
  | nil => exact absurd rfl h0
  | cons c w ih =>
    have hc : c = nl := h c (by simp)
    subst hc
    intro l hl
    simp only [List.cons_append] at hl
    rw [linesOf_append_nl c cur _ hcur] at hl
    rcases List.mem_cons.1 hl with h1 | h1
    · exact .inl h1
    · by_cases hw : w = []
      · subst hw; exact .inr (.inr (by simpa using h1))
      · rcases ih [] (by simp) (fun x hx => h x (by simp [hx])) hw l (by simpa using h1) with h2 | h2 | h2
        · exact .inr (.inl h2)
        · exact .inr (.inl h2)
        · exact .inr (.inr h2)

theorem wrap_margin (E : Env α) (hnl : E.isSpace E.nl = true) (hsp : E.sp ≠ E.nl) (margin : Int)
    (W : List (List α)) :
    ∀ (words : List (List α)) (cur last : List α), Plain E words → (∀ w ∈ words, w ∈ W) → E.nl ∉ cur →
      (cur = [] ∨ (cur.length : Int) ≤ margin ∨ cur ∈ W) →
      ∀ line ∈ linesOf E.nl (cur ++ (wrapLoop E true margin cur.length last words).flatten),
        line = [] ∨ (line.length : Int) ≤ margin ∨ line ∈ W := by
  intro words
  induction words with
  | nil =>
    intro cur last _ _ hcur hok line hl
    simp only [wrapLoop, List.flatten_nil, List.append_nil] at hl
    rw [linesOf_of_not_mem _ _ hcur] at hl
    simp only [List.mem_singleton] at hl
    subst hl; exact hok
  | cons word words ih =>
    intro cur last hpl hW hcur hok line hl
    have hpl' : Plain E words := fun w hw => hpl w (by simp [hw])
    have hW' : ∀ w ∈ words, w ∈ W := fun w hw => hW w (by simp [hw])
    have hword : word ∈ W := hW word (by simp)
    unfold wrapLoop at hl
    by_cases hs : isSpaceWord E word = true
    · rw [if_pos hs] at hl
      have hall : word ≠ [] ∧ ∀ c ∈ word, c = E.nl := by
        rcases hpl word (by simp) with h | h
        · rw [h.2] at hs; simp at hs
        · exact h
      simp only [List.flatten_cons] at hl
      rcases lines_allNl E.nl cur word _ hcur hall.2 hall.1 line hl with h | h | h
      · subst h; exact hok
      · exact .inl h
      · exact ih [] word hpl' hW' (by simp) (.inl rfl) line (by simpa using h)
    · rw [if_neg hs] at hl
      have hno : E.nl ∉ word := by
        rcases hpl word (by simp) with h | h
        · exact h.1
        · exfalso; apply hs
          unfold isSpaceWord
          simp only [Bool.and_eq_true, Bool.not_eq_eq_eq_not, Bool.not_true, List.isEmpty_eq_false_iff,
            List.all_eq_true]
          exact ⟨h.1, fun c hc => by rw [h.2 c hc]; exact hnl⟩
      have hnew : ∀ l, l ∈ linesOf E.nl (word ++ (wrapLoop E true margin word.length word words).flatten) →
          l = [] ∨ (l.length : Int) ≤ margin ∨ l ∈ W :=
        fun l h => ih word word hpl' hW' hno (.inr (.inr hword)) l h
      have hgap : ∃ space : List α, (if (true && endsSentence E last) = true then [E.sp, E.sp] else [E.sp]) = space ∧
          (if (true && endsSentence E last) = true then 2 else 1) = space.length ∧ E.nl ∉ space := by
        refine ⟨_, rfl, ?_, ?_⟩ <;> split <;> simp [hsp.symm]
      obtain ⟨space, g1, g2, g3⟩ := hgap
      dsimp only at hl
      rw [g1, g2] at hl
      by_cases hcol : cur.length ≠ 0
      · by_cases hm : ((word.length + space.length + cur.length : Nat) : Int) > margin
        · rw [if_pos hm, if_pos hcol] at hl
          simp only [List.flatten_cons, List.cons_append, List.nil_append] at hl
          rw [linesOf_append_nl _ _ _ hcur] at hl
          rcases List.mem_cons.1 hl with h | h
          · subst h; exact hok
          · exact hnew line h
        · rw [if_neg hm, if_pos hcol] at hl
          simp only [List.flatten_cons] at hl
          refine ih (cur ++ space ++ word) word hpl' hW' ?_ ?_ line ?_
          · simp [hcur, g3, hno]
          · right; left
            simp only [List.length_append]
            omega
          · simp only [List.length_append, List.append_assoc]
            rw [Nat.add_assoc] at hl
            exact hl
      · have hc0 : cur = [] := List.eq_nil_of_length_eq_zero (by omega)
        subst hc0
        simp only [ne_eq, List.length_nil, not_true_eq_false, if_false, ite_self, List.flatten_cons,
          List.nil_append] at hl
        exact hnew line hl

/-- The separators that the loop inserts. -/
def sepsLoop (E : Env α) (margin : Int) : Nat → List α → List (List α) → List (List α)
  | _, _, [] => []
  | col, last, word :: words =>
    if isSpaceWord E word then [] :: sepsLoop E margin 0 word words
    else
      let space := if endsSentence E last then [E.sp, E.sp] else [E.sp]
      if col = 0 then [] :: sepsLoop E margin word.length word words
      else if ((word.length + space.length + col : Nat) : Int) > margin then
        [E.nl] :: sepsLoop E margin word.length word words
      else space :: sepsLoop E margin (col + space.length + word.length) word words

theorem sepsLoop_length (E : Env α) (margin : Int) (words : List (List α)) (col : Nat) (last : List α) :
    (sepsLoop E margin col last words).length = words.length := by
  induction words generalizing col last with
  | nil => rfl
  | cons word words ih =>
    unfold sepsLoop
    dsimp only
    split
    · simp [ih]
    · split
      · simp [ih]
      · generalize (if endsSentence E last = true then [E.sp, E.sp] else [E.sp]) = space
        split <;> simp [ih]

theorem wrapLoop_seps (E : Env α) (margin : Int) (words : List (List α)) (col : Nat) (last : List α) :
    (wrapLoop E true margin col last words).flatten = weave (sepsLoop E margin col last words) words := by
  induction words generalizing col last with
  | nil => rfl
  | cons word words ih =>
    unfold wrapLoop sepsLoop
    by_cases hs : isSpaceWord E word = true
    · rw [if_pos hs, if_pos hs]
      simp only [List.flatten_cons, ih]; simp [weave]
    · rw [if_neg hs, if_neg hs]
      have g2 : (if (true && endsSentence E last) = true then 2 else 1) =
          (if endsSentence E last = true then [E.sp, E.sp] else [E.sp]).length := by
        by_cases h : endsSentence E last = true <;> simp [h]
      dsimp only
      rw [g2, Bool.true_and]
      by_cases hc : col = 0
      · subst hc
        simp only [ne_eq, not_true_eq_false, if_false, ite_self, if_true, List.flatten_cons, ih]
        simp [weave]
      · rw [if_neg hc, if_pos hc, if_pos hc]
        generalize (if endsSentence E last = true then [E.sp, E.sp] else [E.sp]) = space
        split
        · simp only [List.flatten_cons, ih]; simp [weave]
        · simp only [List.flatten_cons, ih]; simp [weave]

theorem sepsLoop_gap (E : Env α) (hnl : E.isSpace E.nl = true) (hsp : E.sp ≠ E.nl) (margin : Int) :
    ∀ (words : List (List α)) (t prev : List α), Plain E words →
      (isSpaceWord E prev = true → lastLine E.nl t = []) →
      ∀ i w, words[i]? = some w →
        (sepsLoop E margin (lastLine E.nl t).length prev words)[i]? =
          some (gap E margin (t ++ weave ((sepsLoop E margin (lastLine E.nl t).length prev words).take i) (words.take i))
            ((prev :: words)[i]?.getD []) w) := by
  intro words
  induction words with
  | nil => intro t prev _ _ i w h; simp at h
  | cons word words ih =>
    intro t prev hpl hprev i w hi
    have hpl' : Plain E words := fun w hw => hpl w (by simp [hw])
    have hno : isSpaceWord E word = false → E.nl ∉ word := by
      intro hs
      rcases hpl word (by simp) with h | h
      · exact h.1
      · exfalso
        have : isSpaceWord E word = true := by
          unfold isSpaceWord
          simp only [Bool.and_eq_true, Bool.not_eq_eq_eq_not, Bool.not_true, List.isEmpty_eq_false_iff,
            List.all_eq_true]
          exact ⟨h.1, fun c hc => by rw [h.2 c hc]; exact hnl⟩
        rw [this] at hs; simp at hs
    have hspace : isSpaceWord E word = true → ∀ x : List α, lastLine E.nl (x ++ word) = [] := by
      intro hs x
      rcases hpl word (by simp) with h | h
      · rw [h.2] at hs; simp at hs
      · exact lastLine_allNl _ _ _ h.1 h.2
    -- one step: the separator is the gap, and the next column is that of the text so far
    have step : sepsLoop E margin (lastLine E.nl t).length prev (word :: words) =
        gap E margin t prev word ::
          sepsLoop E margin (lastLine E.nl (t ++ gap E margin t prev word ++ word)).length word words := by
      conv => lhs; unfold sepsLoop
      unfold gap
      by_cases hs : isSpaceWord E word = true
      · rw [if_pos hs]
        simp only [hs, true_or, or_true, if_true, List.append_nil, hspace hs, List.length_nil]
      · have hw := hno (by simpa using hs)
        rw [if_neg hs]
        by_cases hc : lastLine E.nl t = []
        · simp only [hc, List.length_nil, or_true, if_true, List.append_nil, lastLine_of_not_mem _ _ _ hw,
            List.nil_append]
        · have hp : ¬ isSpaceWord E prev = true := fun h => hc (hprev h)
          dsimp only
          have hns : ∀ b : Bool, E.nl ∉ (if b = true then [E.sp, E.sp] else [E.sp]) := by
            intro b; cases b <;> simp [hsp.symm]
          have hns := hns (endsSentence E prev)
          generalize (if endsSentence E prev = true then [E.sp, E.sp] else [E.sp]) = space at hns ⊢
          have h3 : ¬ (isSpaceWord E prev = true ∨ isSpaceWord E word = true ∨ lastLine E.nl t = []) := by
            simp [hp, hs, hc]
          have h4 : ¬ (lastLine E.nl t).length = 0 := by simpa using hc
          by_cases hm : ((lastLine E.nl t ++ space ++ word).length : Int) ≤ margin
          · have hm' : ¬ ((word.length + space.length + (lastLine E.nl t).length : Nat) : Int) > margin := by
              simp only [List.length_append] at hm; omega
            simp only [if_neg h3, if_neg h4, if_pos hm, if_neg hm']
            rw [lastLine_of_not_mem _ _ _ hw, lastLine_of_not_mem _ _ _ hns]
            simp only [List.length_append]
          · have hm' : ((word.length + space.length + (lastLine E.nl t).length : Nat) : Int) > margin := by
              simp only [List.length_append] at hm; omega
            simp only [if_neg h3, if_neg h4, if_neg hm, if_pos hm']
            rw [lastLine_of_not_mem _ _ _ hw, lastLine_nl]
            simp
    rw [step]
    cases i with
    | zero =>
      simp only [List.getElem?_cons_zero, Option.some.injEq] at hi
      subst hi
      simp [weave]
    | succ i =>
      have h := ih (t ++ gap E margin t prev word ++ word) word hpl' (fun hs => hspace hs _) i w (by simpa using hi)
      simp only [List.getElem?_cons_succ, List.take_succ_cons] at h ⊢
      rw [h]
      simp only [weave, List.zipWith_cons_cons, List.flatten_cons, List.append_assoc]

/-! ## C52 -/

/-- C52: wrap_words raises exactly when there are no words. Else the result is the words, unmodified and in
order, with nothing, a newline, or one or two spaces before each; nothing before the first one. -/
theorem C52_words_kept (E : Env α) (words : List (List α)) (margin : Int) (two : Bool) :
    (words = [] ∧ wrapWords E words margin two = .error .valueError) ∨
    (words ≠ [] ∧ ∃ seps : List (List α), wrapWords E words margin two = .ok (weave seps words) ∧
      seps.length = words.length ∧ seps.head? = some [] ∧
      ∀ s ∈ seps, s = [] ∨ s = [E.nl] ∨ s = [E.sp] ∨ s = [E.sp, E.sp]) := by
  cases words with
  | nil => exact .inl ⟨rfl, rfl⟩
  | cons word words =>
    refine .inr ⟨by simp, sepsLoop E margin 0 [] (word :: words), ?_, sepsLoop_length .., ?_, ?_⟩
    · rw [← wrapLoop_seps]; rfl
    · unfold sepsLoop; split <;> simp
    · have : ∀ (words : List (List α)) (col : Nat) (last : List α), ∀ s ∈ sepsLoop E margin col last words,
          s = [] ∨ s = [E.nl] ∨ s = [E.sp] ∨ s = [E.sp, E.sp] := by
        intro words
        induction words with
        | nil => intro _ _ s hs; simp [sepsLoop] at hs
        | cons word words ih =>
          intro col last s hs
          unfold sepsLoop at hs
          dsimp only at hs
          by_cases h1 : isSpaceWord E word = true
          · rw [if_pos h1] at hs
            rcases List.mem_cons.1 hs with h | h
            · exact .inl h
            · exact ih _ _ s h
          · rw [if_neg h1] at hs
            by_cases h2 : col = 0
            · rw [if_pos h2] at hs
              rcases List.mem_cons.1 hs with h | h
              · exact .inl h
              · exact ih _ _ s h
            · rw [if_neg h2] at hs
              have hsp : (if endsSentence E last = true then [E.sp, E.sp] else [E.sp]) = [E.sp] ∨
                  (if endsSentence E last = true then [E.sp, E.sp] else [E.sp]) = [E.sp, E.sp] := by
                split <;> simp
              generalize (if endsSentence E last = true then [E.sp, E.sp] else [E.sp]) = space at hs hsp
              split at hs
              · rcases List.mem_cons.1 hs with h | h
                · exact .inr (.inl h)
                · exact ih _ _ s h
              · rcases List.mem_cons.1 hs with h | h
                · subst h; exact .inr (.inr hsp)
                · exact ih _ _ s h
      exact this _ _ _

/-- C52: for words with no newline in them and elements that are only newlines, what is before each word is
exactly what it should be: a newline only where the word does not fit, two spaces after the end of a
sentence. (Whatever the argument two_spaces is.) -/
theorem C52_greedy (E : Env α) (hnl : E.isSpace E.nl = true) (hsp : E.sp ≠ E.nl) (words : List (List α))
    (hw : words ≠ []) (hp : Plain E words) (margin : Int) (two : Bool) :
    ∃ seps : List (List α), wrapWords E words margin two = .ok (weave seps words) ∧
      seps.length = words.length ∧ seps.head? = some [] ∧
      ∀ i prev word, words[i]? = some prev → words[i + 1]? = some word →
        seps[i + 1]? = some (gap E margin (weave (seps.take (i + 1)) (words.take (i + 1))) prev word) := by
  cases words with
  | nil => exact absurd rfl hw
  | cons word words =>
    refine ⟨sepsLoop E margin 0 [] (word :: words), ?_, sepsLoop_length .., ?_, ?_⟩
    · rw [← wrapLoop_seps]; rfl
    · unfold sepsLoop; split <;> simp
    · intro i prev w h1 h2
      have := sepsLoop_gap E hnl hsp margin (word :: words) [] [] hp (by simp [lastLine]) (i + 1) w h2
      have h0 : (lastLine E.nl ([] : List α)).length = 0 := by simp [lastLine]
      rw [h0] at this
      rw [this]
      simp only [List.nil_append, List.getElem?_cons_succ, h1, Option.getD_some]

/-- C91: for such words every line of the result is at most `margin` long, or is a single one of the
words. -/
theorem C91_margin (E : Env α) (hnl : E.isSpace E.nl = true) (hsp : E.sp ≠ E.nl) (words : List (List α))
    (hp : Plain E words) (margin : Int) (hm : 0 ≤ margin) (two : Bool) (out : List α)
    (h : wrapWords E words margin two = .ok out) :
    ∀ line ∈ linesOf E.nl out, (line.length : Int) ≤ margin ∨ line ∈ words := by
  intro line hl
  cases words with
  | nil => simp [wrapWords] at h
  | cons word words =>
    simp only [wrapWords, Except.ok.injEq] at h
    subst h
    rcases wrap_margin E hnl hsp margin (word :: words) (word :: words) [] [] hp (fun _ h => h) (by simp) (.inl rfl)
      line (by simpa using hl) with h | h | h
    · subst h; exact .inl (by simpa using hm)
    · exact .inl h
    · exact .inr h

/-! ## Examples -/

/-- ASCII characters. -/
def ascii : Env Char where
  nl := '\n'
  sp := ' '
  tab := '\t'
  isSpace c := c ∈ [' ', '\n', '\t', '\r', '\x0b', '\x0c']
  ends c := c ∈ ['.', '?', '!']

/-- For the examples: wrap_words of strings. -/
def wrapStr (words : List String) (margin : Int) (two : Bool) : Option String :=
  match wrapWords ascii (words.map String.toList) margin two with
  | .ok s => some (String.ofList s)
  | .error _ => none

example : Plain ascii (["It", "is.", "so", "\n\n", "much", "better"].map String.toList) := by
  unfold Plain; decide
example : wrapStr ["It", "is.", "so", "\n\n", "much", "better"] 7 true = some "It is.\nso\n\nmuch\nbetter" := by decide +kernel
example : wrapStr ["It", "is.", "so", "\n\n", "much", "better"] 10 true = some "It is.  so\n\nmuch\nbetter" := by decide +kernel

/-- C91: two_spaces=False still gives two spaces. -/
theorem C91_counterexample_two_spaces_ignored : wrapStr ["Yes.", "No."] 79 false = some "Yes.  No." := by decide +kernel

/-- C91: an element of whitespace that does not end in a newline makes lines longer than the margin (and
than every word). -/
theorem C91_counterexample_whitespace_word : wrapStr ["aaaa", " ", "bbbb"] 4 true = some "aaaa bbbb" := by decide +kernel

end Big.Wrap
