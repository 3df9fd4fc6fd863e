import Verif.Words.GentlyTitle
/-! # C46: exactly which characters gently_title upper-cases, for every text

The code goes through a text word by word, where a word starts with a *head*: an ordinary character; or
quote marks and the character after them; or D or O and the character after it; or D or O, an
apostrophe and the character after that. The character "after" may be whitespace, and then it is part of
the word: that is how the code comes to miss the start of the next one. -/
namespace Big.Words

variable {α : Type} [DecidableEq α]

/-- Whitespace or a left parenthesis. -/
def Gap (E : TitleEnv α) (x : α) : Prop := E.space x = true ∨ x = E.lparen

/-- A quote mark or an apostrophe. -/
def Mark (apos quote : α → Bool) (x : α) : Prop := apos x = true ∨ quote x = true

/-- A D or O that is not also a gap or a quote mark. -/
def IsDO (E : TitleEnv α) (apos quote : α → Bool) (d : α) : Prop :=
  E.isDO (E.upper d) = true ∧ ¬ Gap E d ∧ ¬ Mark apos quote d

/-- The quote marks a word starts with. -/
def Marks (E : TitleEnv α) (apos quote : α → Bool) (q : List α) : Prop :=
  (∃ x r, q = x :: r ∧ ¬ Gap E x) ∧ ∀ x ∈ q, Mark apos quote x

/-- The heads of words. -/
inductive Head (E : TitleEnv α) (apos quote : α → Bool) : List α → Prop where
  | plain (c) : ¬ Gap E c → ¬ Mark apos quote c → E.isDO (E.upper c) = false → Head E apos quote [c]
  | quoted (q c) : Marks E apos quote q → ¬ Mark apos quote c → Head E apos quote (q ++ [c])
  | letter (d c) : IsDO E apos quote d → apos c = false → Head E apos quote [d, c]
  | letterApos (d a c) : IsDO E apos quote d → apos a = true → Head E apos quote [d, a, c]

/-- `Start p`: after `p` the code expects a word to start: nothing has been read, or a gap after a gap, or
a gap after a word: a head and characters that are no gaps. -/
inductive Start (E : TitleEnv α) (apos quote : α → Bool) : List α → Prop where
  | nil : Start E apos quote []
  | gap (p x) : Start E apos quote p → Gap E x → Start E apos quote (p ++ [x])
  | word (p h r x) : Start E apos quote p → Head E apos quote h → (∀ c ∈ r, ¬ Gap E c) → Gap E x →
      Start E apos quote (p ++ h ++ r ++ [x])

/-- The places where a character, `c` after `pre`, is upper-cased: the first of a word; the first after the
quote marks a word starts with; the first after D' or O' at the start of a word. -/
def Capital (E : TitleEnv α) (apos quote : α → Bool) (pre : List α) (c : α) : Prop :=
  (Start E apos quote pre ∧ ¬ Gap E c) ∨
  (∃ p q, pre = p ++ q ∧ Start E apos quote p ∧ Marks E apos quote q ∧ ¬ Mark apos quote c) ∨
  (∃ p d a, pre = p ++ [d, a] ∧ Start E apos quote p ∧ IsDO E apos quote d ∧ apos a = true)

variable {E : TitleEnv α} {apos quote : α → Bool}

theorem gap_iff (x : α) : (E.space x || decide (x = E.lparen)) = true ↔ Gap E x := by simp [Gap]

theorem mark_iff (x : α) : (apos x || quote x) = true ↔ Mark apos quote x := by simp [Mark]

/-- What the state says about the text before it. -/
def StateIs (E : TitleEnv α) (apos quote : α → Bool) (pre : List α) : TState → Prop
  | .afterSpace => Start E apos quote pre
  | .afterQuote => ∃ p q, pre = p ++ q ∧ Start E apos quote p ∧ Marks E apos quote q
  | .afterDO => ∃ p d, pre = p ++ [d] ∧ Start E apos quote p ∧ IsDO E apos quote d
  | .afterDOApos => ∃ p d a, pre = p ++ [d, a] ∧ Start E apos quote p ∧ IsDO E apos quote d ∧ apos a = true
  | .inWord => ∃ p h r, pre = p ++ h ++ r ∧ Start E apos quote p ∧ Head E apos quote h ∧ ∀ c ∈ r, ¬ Gap E c

theorem stateIs_step (pre : List α) (st : TState) (c : α) (h : StateIs E apos quote pre st) :
    StateIs E apos quote (pre ++ [c]) (gentlyStep E apos quote st c).2 := by
  cases st with
  | inWord =>
    obtain ⟨p, hd, r, rfl, h1, h2, h3⟩ := h
    dsimp only [gentlyStep]
    by_cases hg : Gap E c
    · rw [if_pos ((gap_iff c).2 hg)]
      exact .word p hd r c h1 h2 h3 hg
    · rw [if_neg (fun h => hg ((gap_iff c).1 h))]
      refine ⟨p, hd, r ++ [c], by simp, h1, h2, ?_⟩
      intro x hx
      rcases List.mem_append.1 hx with hx | hx
      · exact h3 x hx
      · rw [List.mem_singleton.1 hx]; exact hg
  | afterSpace =>
    dsimp only [gentlyStep]
    by_cases hg : Gap E c
    · rw [if_pos ((gap_iff c).2 hg)]
      exact .gap pre c h hg
    · rw [if_neg (fun h => hg ((gap_iff c).1 h))]
      dsimp only
      by_cases hm : Mark apos quote c
      · rw [if_pos ((mark_iff c).2 hm)]
        exact ⟨pre, [c], rfl, h, ⟨⟨c, [], rfl, hg⟩, by simpa using hm⟩⟩
      · rw [if_neg (fun h => hm ((mark_iff c).1 h))]
        by_cases hd : E.isDO (E.upper c) = true
        · rw [if_pos hd]
          exact ⟨pre, c, rfl, h, hd, hg, hm⟩
        · rw [if_neg hd]
          exact ⟨pre, [c], [], by simp, h, .plain c hg hm (by simpa using hd), by simp⟩
  | afterQuote =>
    obtain ⟨p, q, rfl, h1, ⟨x, r, rfl, h2⟩, h3⟩ := h
    dsimp only [gentlyStep]
    by_cases hm : Mark apos quote c
    · rw [if_pos ((mark_iff c).2 hm)]
      refine ⟨p, x :: r ++ [c], by simp, h1, ⟨x, r ++ [c], rfl, h2⟩, ?_⟩
      intro y hy
      rcases List.mem_append.1 hy with hy | hy
      · exact h3 y hy
      · rw [List.mem_singleton.1 hy]; exact hm
    · rw [if_neg (fun h => hm ((mark_iff c).1 h))]
      exact ⟨p, x :: r ++ [c], [], by simp, h1, .quoted _ c ⟨⟨x, r, rfl, h2⟩, h3⟩ hm, by simp⟩
  | afterDO =>
    obtain ⟨p, d, rfl, h1, h2⟩ := h
    dsimp only [gentlyStep]
    by_cases ha : apos c = true
    · rw [if_pos ha]; exact ⟨p, d, c, by simp, h1, h2, ha⟩
    · rw [if_neg ha]; exact ⟨p, [d, c], [], by simp, h1, .letter d c h2 (by simpa using ha), by simp⟩
  | afterDOApos =>
    obtain ⟨p, d, a, rfl, h1, h2, h3⟩ := h
    exact ⟨p, [d, a, c], [], by simp, h1, .letterApos d a c h2 h3, by simp⟩

theorem stateIs_after : ∀ (suf pre : List α) (st : TState), StateIs E apos quote pre st →
    StateIs E apos quote (pre ++ suf) (stateAfter E apos quote st suf) := by
  intro suf
  induction suf with
  | nil => intro pre st h; simpa [stateAfter] using h
  | cons c r ih =>
    intro pre st h
    have := ih (pre ++ [c]) _ (stateIs_step pre st c h)
    simpa [stateAfter] using this

/-! ### the other direction -/

theorem after_marks {q : List α} (h : Marks E apos quote q) :
    stateAfter E apos quote .afterSpace q = .afterQuote := by
  obtain ⟨⟨x, r, rfl, hx⟩, hm⟩ := h
  have h1 : (gentlyStep E apos quote .afterSpace x).2 = .afterQuote := by
    dsimp only [gentlyStep]
    rw [if_neg (fun h => hx ((gap_iff x).1 h))]
    dsimp only
    rw [if_pos ((mark_iff x).2 (hm x (by simp)))]
  have h2 : ∀ r : List α, (∀ y ∈ r, Mark apos quote y) → stateAfter E apos quote .afterQuote r = .afterQuote := by
    intro r
    induction r with
    | nil => intro _; rfl
    | cons y r ih =>
      intro h
      have : (gentlyStep E apos quote .afterQuote y).2 = .afterQuote := by
        dsimp only [gentlyStep]
        rw [if_pos ((mark_iff y).2 (h y (by simp)))]
      have hi := ih (fun z hz => h z (by simp [hz]))
      simp only [stateAfter, List.foldl_cons, this] at hi ⊢
      exact hi
  have := h2 r (fun y hy => hm y (by simp [hy]))
  simp only [stateAfter, List.foldl_cons, h1] at this ⊢
  exact this

theorem after_DO {d : α} (h : IsDO E apos quote d) :
    (gentlyStep E apos quote .afterSpace d).2 = .afterDO := by
  obtain ⟨h1, h2, h3⟩ := h
  dsimp only [gentlyStep]
  rw [if_neg (fun h => h2 ((gap_iff d).1 h))]
  dsimp only
  rw [if_neg (fun h => h3 ((mark_iff d).1 h)), if_pos h1]

theorem after_head {h : List α} (hh : Head E apos quote h) :
    stateAfter E apos quote .afterSpace h = .inWord := by
  cases hh with
  | plain c h1 h2 h3 =>
    simp only [stateAfter, List.foldl_cons, List.foldl_nil, gentlyStep]
    rw [if_neg (fun h => h1 ((gap_iff c).1 h))]
    dsimp only
    rw [if_neg (fun h => h2 ((mark_iff c).1 h)), h3]
    rfl
  | quoted q c h1 h2 =>
    rw [stateAfter_snoc, after_marks h1]
    dsimp only [gentlyStep]
    rw [if_neg (fun h => h2 ((mark_iff c).1 h))]
  | letter d c h1 h2 =>
    simp only [stateAfter, List.foldl_cons, List.foldl_nil, after_DO h1]
    simp [gentlyStep, h2]
  | letterApos d a c h1 h2 =>
    simp only [stateAfter, List.foldl_cons, List.foldl_nil, after_DO h1]
    simp [gentlyStep, h2]

theorem after_rest : ∀ r : List α, (∀ c ∈ r, ¬ Gap E c) → stateAfter E apos quote .inWord r = .inWord := by
  intro r
  induction r with
  | nil => intro _; rfl
  | cons c r ih =>
    intro h
    have h1 : (gentlyStep E apos quote .inWord c).2 = .inWord := by
      dsimp only [gentlyStep]
      rw [if_neg (fun hg => h c (by simp) ((gap_iff c).1 hg))]
    have := ih (fun x hx => h x (by simp [hx]))
    simp only [stateAfter, List.foldl_cons, h1] at this ⊢
    exact this

theorem after_start {p : List α} (h : Start E apos quote p) : stateAfter E apos quote .afterSpace p = .afterSpace := by
  induction h with
  | nil => rfl
  | gap p x _ hg ih =>
    rw [stateAfter_snoc, ih]
    dsimp only [gentlyStep]
    rw [if_pos ((gap_iff x).2 hg)]
  | word p h r x _ hh hr hg ih =>
    rw [stateAfter_snoc, stateAfter_append, stateAfter_append, ih, after_head hh, after_rest r hr]
    dsimp only [gentlyStep]
    rw [if_pos ((gap_iff x).2 hg)]

theorem touched_iff (pre : List α) (c : α) :
    touched (stateAfter E apos quote .afterSpace pre) E apos quote c = true ↔ Capital E apos quote pre c := by
  constructor
  · have := stateIs_after (E := E) (apos := apos) (quote := quote) pre [] .afterSpace .nil
    rw [List.nil_append] at this
    generalize stateAfter E apos quote .afterSpace pre = st at this
    intro ht
    cases st with
    | inWord => simp [touched] at ht
    | afterSpace => exact .inl ⟨this, fun h => by rw [← gap_iff] at h; simp [touched, h] at ht⟩
    | afterQuote =>
      obtain ⟨p, q, h1, h2, h3⟩ := this
      exact .inr (.inl ⟨p, q, h1, h2, h3, fun h => by rw [← mark_iff] at h; simp [touched, h] at ht⟩)
    | afterDO => simp [touched] at ht
    | afterDOApos => exact .inr (.inr this)
  · rintro (⟨h1, h2⟩ | ⟨p, q, rfl, h1, h2, h3⟩ | ⟨p, d, a, rfl, h1, h2, h3⟩)
    · rw [after_start h1]
      simpa [touched, Gap] using h2
    · rw [stateAfter_append, after_start h1, after_marks h2]
      simpa [touched, Mark] using h3
    · rw [stateAfter_append, after_start h1]
      simp only [stateAfter, List.foldl_cons, List.foldl_nil, after_DO h2]
      simp [gentlyStep, h3, touched]

/-- C88: exactly which characters are upper-cased, for every text and every choice of quote marks. -/
theorem C88_exact (s t : List α) (a d : Option (List (List α))) (apos quote : α → Bool)
    (h : gentlyTitle E s a d = .ok t) (ha : quoteTest E.defApos a = .ok apos)
    (hd : quoteTest E.defQuote d = .ok quote) :
    ∃ marks, UppercasedAt E marks s t ∧
      ∀ pre c suf, s = pre ++ c :: suf → (marks[pre.length]? = some true ↔ Capital E apos quote pre c) := by
  unfold gentlyTitle at h
  rw [ha, hd] at h
  simp only [Except.ok.injEq] at h
  subst h
  refine ⟨marksFrom E apos quote .afterSpace s, marksFrom_spec s _, ?_⟩
  intro pre c suf hs
  subst hs
  rw [marksFrom_get, Option.some.injEq]
  exact touched_iff pre c

/-- C88: the starts of words the code misses are those after a word that is only quote marks, or a D or O, or
D' or O': there, the gap is taken for the character after them. -/
theorem C88_missed (pre : List α) (h : AtStart E pre) (hs : ¬ Start E apos quote pre) :
    ∃ p hd x, pre = p ++ hd ++ [x] ∧ Start E apos quote p ∧ Gap E x ∧
      (Marks E apos quote hd ∨ (∃ d, hd = [d] ∧ IsDO E apos quote d) ∨
        ∃ d a, hd = [d, a] ∧ IsDO E apos quote d ∧ apos a = true) := by
  rcases h with rfl | ⟨q, x, rfl, hx⟩
  · exact absurd .nil hs
  · have := stateIs_after (E := E) (apos := apos) (quote := quote) q [] .afterSpace .nil
    rw [List.nil_append] at this
    generalize stateAfter E apos quote .afterSpace q = st at this
    cases st with
    | inWord =>
      obtain ⟨p, hd, r, rfl, h1, h2, h3⟩ := this
      exact absurd (.word p hd r x h1 h2 h3 hx) hs
    | afterSpace => exact absurd (.gap q x this hx) hs
    | afterQuote =>
      obtain ⟨p, m, rfl, h1, h2⟩ := this
      exact ⟨p, m, x, rfl, h1, hx, .inl h2⟩
    | afterDO =>
      obtain ⟨p, d, rfl, h1, h2⟩ := this
      exact ⟨p, [d], x, rfl, h1, hx, .inr (.inl ⟨d, rfl, h2⟩)⟩
    | afterDOApos =>
      obtain ⟨p, d, a, rfl, h1, h2, h3⟩ := this
      exact ⟨p, [d, a], x, rfl, h1, hx, .inr (.inr ⟨d, a, rfl, h2, h3⟩)⟩

/-- C106: gently_title raises ValueError exactly if apostrophes or double_quotes is given and lists nothing, or an empty
string among others. -/
theorem C106_refuses_exactly (E : TitleEnv α) (s : List α) (a d : Option (List (List α))) :
    (∃ e, gentlyTitle E s a d = .error e) ↔ ∃ l, (a = some l ∨ d = some l) ∧ (l = [] ∨ [] ∈ l) := by
  have key : ∀ (f : α → Bool) (x : Option (List (List α))),
      ((∃ e, quoteTest f x = .error e) ↔ ∃ l, x = some l ∧ (l = [] ∨ [] ∈ l)) := by
    intro f x
    cases x with
    | none => simp [quoteTest]
    | some l =>
      unfold quoteTest
      dsimp only
      by_cases h1 : l.any List.isEmpty = true
      · rw [if_pos h1]
        exact ⟨fun _ => ⟨l, rfl, .inr (by simpa using h1)⟩, fun _ => ⟨_, rfl⟩⟩
      · rw [if_neg h1]
        have h1' : [] ∉ l := by simpa using h1
        by_cases h2 : l.isEmpty = true
        · rw [if_pos h2]
          exact ⟨fun _ => ⟨l, rfl, .inl (by simpa using h2)⟩, fun _ => ⟨_, rfl⟩⟩
        · rw [if_neg h2]
          have h2' : l ≠ [] := by simpa using h2
          simp [h1', h2']
  have ha := key E.defApos a
  have hd := key E.defQuote d
  unfold gentlyTitle
  cases h1 : quoteTest E.defApos a with
  | error e =>
    obtain ⟨l, h, h'⟩ := ha.1 ⟨e, h1⟩
    exact ⟨fun _ => ⟨l, .inl h, h'⟩, fun _ => ⟨e, rfl⟩⟩
  | ok f =>
    rw [h1] at ha
    cases h2 : quoteTest E.defQuote d with
    | error e =>
      obtain ⟨l, h, h'⟩ := hd.1 ⟨e, h2⟩
      exact ⟨fun _ => ⟨l, .inr h, h'⟩, fun _ => ⟨e, rfl⟩⟩
    | ok g =>
      rw [h2] at hd
      constructor
      · rintro ⟨e, h⟩; simp at h
      · rintro ⟨l, h | h, h'⟩
        · obtain ⟨e, he⟩ := ha.2 ⟨l, h, h'⟩; simp at he
        · obtain ⟨e, he⟩ := hd.2 ⟨l, h, h'⟩; simp at he

/-! ### examples -/

example : (∃ e, gentlyTitle asciiTitle "a".toList (some ["'".toList, []]) none = .error e) ∧
    (∃ t, gentlyTitle asciiTitle "a".toList (some ["'".toList]) none = .ok t) := ⟨⟨_, rfl⟩, _, rfl⟩

/-- A text that is capitalised, and why: in "vitamin d is" the space after "d" is part of the word. -/
example : gentlyTitle asciiTitle "vitamin d is".toList none none = .ok "Vitamin D is".toList ∧
    Start asciiTitle asciiTitle.defApos asciiTitle.defQuote "vitamin ".toList ∧
    Capital asciiTitle asciiTitle.defApos asciiTitle.defQuote "vitamin ".toList 'd' ∧
    ¬ Capital asciiTitle asciiTitle.defApos asciiTitle.defQuote "vitamin d ".toList 'i' := by
  have hS : Start asciiTitle asciiTitle.defApos asciiTitle.defQuote "vitamin ".toList := by
    have := Start.word (E := asciiTitle) (apos := asciiTitle.defApos) (quote := asciiTitle.defQuote) [] ['v']
      "itamin".toList ' ' .nil (.plain 'v' (by unfold Gap; decide) (by unfold Mark; decide) (by decide))
      (by unfold Gap; decide) (by unfold Gap; decide)
    exact this
  refine ⟨by decide +kernel, hS, .inl ⟨hS, by unfold Gap; decide⟩, ?_⟩
  rw [← touched_iff]
  decide +kernel

end Big.Words
