/-!
# C46: gently_title (big/text.py:1564-1574, 1589-1726)

Characters are of any type. `space` is `isspace`, `upper` is `str.upper` of one character (which may be
several characters, as for 'ß'), `isDO` is `'DO'.__contains__` of the upper-cased character, `defApos`
and `defQuote` the default tests for apostrophes and double quotes. Type errors: Words/ArgsModel.lean.
-/
namespace Big.Words

variable {α : Type} [DecidableEq α]

/-- The parameters: what Python's str or bytes says about characters. For text.py:1693-1724. -/
structure TitleEnv (α : Type) where
  space : α → Bool
  lparen : α
  upper : α → List α
  isDO : List α → Bool
  defApos : α → Bool
  defQuote : α → Bool

/-- The states (text.py:1564-1568). -/
inductive TState where
  | inWord | afterSpace | afterQuote | afterDO | afterDOApos
  deriving DecidableEq, Repr

/-- One turn of the loop (text.py:1693-1724): what is appended, and the next state. -/
def gentlyStep (E : TitleEnv α) (apos quote : α → Bool) (state : TState) (c : α) : List α × TState :=
  let isSpace := E.space c || decide (c = E.lparen)
  match state with
  | .inWord => ([c], if isSpace then .afterSpace else .inWord)
  | .afterSpace =>
    if isSpace then ([c], .afterSpace)
    else (E.upper c,
      if apos c || quote c then .afterQuote
      else if E.isDO (E.upper c) then .afterDO
      else .inWord)
  | .afterQuote => if apos c || quote c then ([c], .afterQuote) else (E.upper c, .inWord)
  | .afterDO => ([c], if apos c then .afterDOApos else .inWord)
  | .afterDOApos => (E.upper c, .inWord)

/-- The loop (text.py:1691-1725). -/
def gentlyLoop (E : TitleEnv α) (apos quote : α → Bool) : TState → List α → List α
  | _, [] => []
  | st, c :: r => (gentlyStep E apos quote st c).1 ++ gentlyLoop E apos quote (gentlyStep E apos quote st c).2 r

/-- ValueError. For text.py. -/
inductive GErr where
  | valueError
  deriving DecidableEq, Repr

/-- The test made from an `apostrophes` or `double_quotes` argument (text.py:1664-1688). -/
def quoteTest (dflt : α → Bool) : Option (List (List α)) → Except GErr (α → Bool)
  | none => .ok dflt
  | some l =>
    if l.any List.isEmpty then .error .valueError
    else if l.isEmpty then .error .valueError
    else .ok (fun c => l.contains [c])

/-- gently_title (text.py:1589-1726). -/
def gentlyTitle (E : TitleEnv α) (s : List α) (apostrophes doubleQuotes : Option (List (List α))) :
    Except GErr (List α) :=
  match quoteTest E.defApos apostrophes with
  | .error e => .error e
  | .ok apos =>
    match quoteTest E.defQuote doubleQuotes with
    | .error e => .error e
    | .ok quote => .ok (gentlyLoop E apos quote .afterSpace s)

/-! ### specification -/

/-- `p` is empty or ends in whitespace or a left parenthesis. -/
def AtStart (E : TitleEnv α) (p : List α) : Prop :=
  p = [] ∨ ∃ q x, p = q ++ [x] ∧ (E.space x = true ∨ x = E.lparen)

/-- Places where a character, `c` after `pre`, may be upper-cased: it is the first character of a word;
or it follows a run of quote marks that starts a word; or it follows an apostrophe after a D or O that
starts a word. -/
def MayCapitalize (E : TitleEnv α) (apos quote : α → Bool) (pre : List α) (c : α) : Prop :=
  (AtStart E pre ∧ ¬ (E.space c = true ∨ c = E.lparen)) ∨
  (∃ p q, pre = p ++ q ∧ q ≠ [] ∧ AtStart E p ∧ (∀ x ∈ q, apos x = true ∨ quote x = true) ∧
    ¬ (apos c = true ∨ quote c = true)) ∨
  (∃ p d a, pre = p ++ [d, a] ∧ AtStart E p ∧ E.isDO (E.upper d) = true ∧ apos a = true)

/-- `t` is `s` with the characters marked true replaced by their upper-case form. -/
def UppercasedAt (E : TitleEnv α) (marks : List Bool) (s t : List α) : Prop :=
  marks.length = s.length ∧ t = (List.zipWith (fun c m => if m then E.upper c else [c]) s marks).flatten

/-- Which characters `upper` is applied to. -/
def touched (st : TState) (E : TitleEnv α) (apos quote : α → Bool) (c : α) : Bool :=
  match st with
  | .inWord => false
  | .afterSpace => !(E.space c || decide (c = E.lparen))
  | .afterQuote => !(apos c || quote c)
  | .afterDO => false
  | .afterDOApos => true

/-- The state after `pre`. -/
def stateAfter (E : TitleEnv α) (apos quote : α → Bool) (st : TState) (pre : List α) : TState :=
  pre.foldl (fun st c => (gentlyStep E apos quote st c).2) st

variable {E : TitleEnv α} {apos quote : α → Bool}

theorem step_fst (st : TState) (c : α) :
    (gentlyStep E apos quote st c).1 = if touched st E apos quote c then E.upper c else [c] := by
  cases st with
  | afterSpace =>
    by_cases h : (E.space c || decide (c = E.lparen)) = true
    · have ht : touched .afterSpace E apos quote c = false := by simp only [touched, h]; rfl
      rw [ht]; dsimp only [gentlyStep]; rw [if_pos h]; rfl
    · have ht : touched .afterSpace E apos quote c = true := by simpa [touched] using h
      rw [ht]; dsimp only [gentlyStep]; rw [if_neg h]; rfl
  | afterQuote =>
    by_cases h : (apos c || quote c) = true
    · have ht : touched .afterQuote E apos quote c = false := by simp only [touched, h]; rfl
      rw [ht]; dsimp only [gentlyStep]; rw [if_pos h]; rfl
    · have ht : touched .afterQuote E apos quote c = true := by simpa [touched] using h
      rw [ht]; dsimp only [gentlyStep]; rw [if_neg h]; rfl
  | _ => simp [gentlyStep, touched]

/-- The marks. -/
def marksFrom (E : TitleEnv α) (apos quote : α → Bool) : TState → List α → List Bool
  | _, [] => []
  | st, c :: r => touched st E apos quote c :: marksFrom E apos quote (gentlyStep E apos quote st c).2 r

theorem marksFrom_spec : ∀ (s : List α) (st : TState),
    UppercasedAt E (marksFrom E apos quote st s) s (gentlyLoop E apos quote st s) := by
  intro s
  induction s with
  | nil => intro st; exact ⟨rfl, rfl⟩
  | cons c r ih =>
    intro st
    obtain ⟨h1, h2⟩ := ih (gentlyStep E apos quote st c).2
    refine ⟨by simp [marksFrom, h1], ?_⟩
    simp only [gentlyLoop, marksFrom, List.zipWith_cons_cons, List.flatten_cons, step_fst, ← h2]

theorem marksFrom_get : ∀ (pre : List α) (st : TState) (c : α) (suf : List α),
    (marksFrom E apos quote st (pre ++ c :: suf))[pre.length]?
      = some (touched (stateAfter E apos quote st pre) E apos quote c) := by
  intro pre
  induction pre with
  | nil => intro st c suf; rfl
  | cons x pre ih =>
    intro st c suf
    simp only [List.cons_append, marksFrom, List.length_cons, List.getElem?_cons_succ]
    rw [ih]; rfl

/-- What the state says about the text before it. -/
def StateOK (E : TitleEnv α) (apos quote : α → Bool) (pre : List α) : TState → Prop
  | .inWord => True
  | .afterSpace => AtStart E pre
  | .afterQuote => ∃ p q, pre = p ++ q ∧ q ≠ [] ∧ AtStart E p ∧ ∀ x ∈ q, apos x = true ∨ quote x = true
  | .afterDO => ∃ p d, pre = p ++ [d] ∧ AtStart E p ∧ E.isDO (E.upper d) = true
  | .afterDOApos => ∃ p d a, pre = p ++ [d, a] ∧ AtStart E p ∧ E.isDO (E.upper d) = true ∧ apos a = true

theorem stateOK_step (pre : List α) (st : TState) (c : α) (h : StateOK E apos quote pre st) :
    StateOK E apos quote (pre ++ [c]) (gentlyStep E apos quote st c).2 := by
  cases st with
  | inWord =>
    simp only [gentlyStep]
    split
    · rename_i hs
      exact .inr ⟨pre, c, rfl, by simpa using hs⟩
    · trivial
  | afterSpace =>
    simp only [gentlyStep]
    split
    · rename_i hs
      exact .inr ⟨pre, c, rfl, by simpa using hs⟩
    · dsimp only
      split
      · rename_i hq
        exact ⟨pre, [c], rfl, by simp, h, by simpa using hq⟩
      · split
        · rename_i hd
          exact ⟨pre, c, rfl, h, hd⟩
        · trivial
  | afterQuote =>
    obtain ⟨p, q, rfl, hq, hp, hall⟩ := h
    simp only [gentlyStep]
    split
    · rename_i hq'
      refine ⟨p, q ++ [c], by simp, by simp, hp, ?_⟩
      intro x hx
      rcases List.mem_append.1 hx with hx | hx
      · exact hall x hx
      · rw [List.mem_singleton.1 hx]; simpa using hq'
    · trivial
  | afterDO =>
    obtain ⟨p, d, rfl, hp, hd⟩ := h
    simp only [gentlyStep]
    split
    · rename_i ha
      exact ⟨p, d, c, by simp, hp, hd, ha⟩
    · trivial
  | afterDOApos => trivial

theorem stateAfter_ok : ∀ (suf pre : List α) (st : TState), StateOK E apos quote pre st →
    StateOK E apos quote (pre ++ suf) (stateAfter E apos quote st suf) := by
  intro suf
  induction suf with
  | nil => intro pre st h; simpa [stateAfter] using h
  | cons c r ih =>
    intro pre st h
    have := ih (pre ++ [c]) _ (stateOK_step pre st c h)
    simpa [stateAfter] using this

theorem touched_may {pre : List α} {st : TState} {c : α} (h : StateOK E apos quote pre st)
    (ht : touched st E apos quote c = true) : MayCapitalize E apos quote pre c := by
  cases st with
  | inWord => simp [touched] at ht
  | afterSpace => exact .inl ⟨h, by simpa [touched] using ht⟩
  | afterQuote =>
    obtain ⟨p, q, h1, h2, h3, h4⟩ := h
    exact .inr (.inl ⟨p, q, h1, h2, h3, h4, by simpa [touched] using ht⟩)
  | afterDO => simp [touched] at ht
  | afterDOApos =>
    exact .inr (.inr h)

/-- C46: the output is the input with some characters replaced by their upper-case form, and a
character is replaced only if it is the first of a word (at the start of the string, or after
whitespace or a left parenthesis), or follows a run of quote marks there, or follows an apostrophe
after a D or O there. -/
theorem C46_only_word_initial (s t : List α) (a d : Option (List (List α)))
    (h : gentlyTitle E s a d = .ok t) :
    ∃ apos quote marks, quoteTest E.defApos a = .ok apos ∧ quoteTest E.defQuote d = .ok quote ∧
      UppercasedAt E marks s t ∧
      ∀ pre c suf, s = pre ++ c :: suf → marks[pre.length]? = some true →
        MayCapitalize E apos quote pre c := by
  unfold gentlyTitle at h
  split at h
  · simp at h
  · rename_i apos ha
    split at h
    · simp at h
    · rename_i quote hd
      simp only [Except.ok.injEq] at h
      subst h
      refine ⟨apos, quote, marksFrom E apos quote .afterSpace s, ha, hd, marksFrom_spec s _, ?_⟩
      intro pre c suf hs hm
      subst hs
      rw [marksFrom_get] at hm
      have := stateAfter_ok (E := E) (apos := apos) (quote := quote) pre [] .afterSpace (.inl rfl)
      exact touched_may this (by simpa using hm)

/-! ### and it does capitalize the words, apart from some -/

/-- A word that loses the next word its capital: only quote marks, or a single D or O, or one of them
and an apostrophe. -/
def Trap (E : TitleEnv α) (apos quote : α → Bool) (w : List α) : Prop :=
  (∀ x ∈ w, apos x = true ∨ quote x = true) ∨ (∃ d, w = [d] ∧ E.isDO (E.upper d) = true) ∨
  (∃ d a, w = [d, a] ∧ E.isDO (E.upper d) = true ∧ apos a = true)

/-- `w` is a word of `s` (a maximal run of characters that are not whitespace or left parentheses)
starting after `p`, with something after it. -/
def WordIn (E : TitleEnv α) (s p w : List α) : Prop :=
  AtStart E p ∧ w ≠ [] ∧ (∀ x ∈ w, ¬ (E.space x = true ∨ x = E.lparen)) ∧
  ∃ x r, s = p ++ w ++ x :: r ∧ (E.space x = true ∨ x = E.lparen)

/-- The state inside a word `w` that started in the state after whitespace. -/
def WordState (E : TitleEnv α) (apos quote : α → Bool) (w : List α) : TState → Prop
  | .afterSpace => w = []
  | .afterQuote => w ≠ [] ∧ ∀ x ∈ w, apos x = true ∨ quote x = true
  | .afterDO => ∃ d, w = [d] ∧ ¬ (apos d = true ∨ quote d = true) ∧ E.isDO (E.upper d) = true
  | .afterDOApos => ∃ d a, w = [d, a] ∧ ¬ (apos d = true ∨ quote d = true) ∧
      E.isDO (E.upper d) = true ∧ apos a = true
  | .inWord => w ≠ [] ∧ ¬ (∀ x ∈ w, apos x = true ∨ quote x = true) ∧
      ¬ (∃ d, w = [d] ∧ E.isDO (E.upper d) = true) ∧
      ¬ (∃ d a, w = [d, a] ∧ E.isDO (E.upper d) = true ∧ apos a = true)

theorem wordState_step (w : List α) (st : TState) (c : α) (hc : ¬ (E.space c = true ∨ c = E.lparen))
    (h : WordState E apos quote w st) :
    WordState E apos quote (w ++ [c]) (gentlyStep E apos quote st c).2 := by
  have hc' : (E.space c || decide (c = E.lparen)) = false := by
    simp only [not_or] at hc; simp [hc.1, hc.2]
  cases st with
  | inWord =>
    obtain ⟨h1, h2, h3, h4⟩ := h
    simp only [gentlyStep, hc', Bool.false_eq_true, if_false]
    refine ⟨by simp, fun h => h2 (fun x hx => h x (by simp [hx])), ?_, ?_⟩
    · rintro ⟨d, e, _⟩
      have := congrArg List.length e
      simp at this
      exact h1 this
    · rintro ⟨d, a, e, hd, _⟩
      have e' : w ++ [c] = [d] ++ [a] := e
      obtain ⟨rfl, _⟩ := List.append_inj' e' rfl
      exact h3 ⟨d, rfl, hd⟩
  | afterSpace =>
    have : w = [] := h
    subst this
    simp only [gentlyStep, hc', Bool.false_eq_true, if_false, List.nil_append]
    split
    · rename_i hq
      exact ⟨by simp, by simpa using hq⟩
    · rename_i hq
      have hq : ¬ (apos c = true ∨ quote c = true) := by simpa using hq
      split
      · rename_i hd; exact ⟨c, rfl, hq, hd⟩
      · rename_i hd
        refine ⟨by simp, by simpa using hq, ?_, ?_⟩
        · rintro ⟨d, e, h⟩
          simp only [List.cons.injEq, and_true] at e
          exact hd (e ▸ h)
        · rintro ⟨d, a, e, _⟩; simp at e
  | afterQuote =>
    obtain ⟨h1, h2⟩ := h
    simp only [gentlyStep]
    split
    · rename_i hq
      refine ⟨by simp, ?_⟩
      intro x hx
      rcases List.mem_append.1 hx with hx | hx
      · exact h2 x hx
      · rw [List.mem_singleton.1 hx]; simpa using hq
    · rename_i hq
      have hq : ¬ (apos c = true ∨ quote c = true) := by simpa using hq
      refine ⟨by simp, fun h => hq (h c (by simp)), ?_, ?_⟩
      · rintro ⟨d, e, _⟩
        have := congrArg List.length e
        simp at this
        exact h1 this
      · rintro ⟨d, a, e, _, ha⟩
        have e' : w ++ [c] = [d] ++ [a] := e
        obtain ⟨_, e2⟩ := List.append_inj' e' rfl
        simp only [List.cons.injEq, and_true] at e2
        exact hq (.inl (e2 ▸ ha))
  | afterDO =>
    obtain ⟨d, rfl, hq, hd⟩ := h
    simp only [gentlyStep]
    split
    · rename_i ha; exact ⟨d, c, rfl, hq, hd, ha⟩
    · rename_i ha
      refine ⟨by simp, fun h => hq (h d (by simp)), ?_, ?_⟩
      · rintro ⟨d, e, _⟩; simp at e
      · rintro ⟨d', a, e, _, ha'⟩
        simp only [List.cons_append, List.nil_append, List.cons.injEq, and_true] at e
        exact ha (e.2 ▸ ha')
  | afterDOApos =>
    obtain ⟨d, a, rfl, hq, hd, ha⟩ := h
    refine ⟨by simp, fun h => hq (h d (by simp)), ?_, ?_⟩
    · rintro ⟨d, e, _⟩; simp at e
    · rintro ⟨d', a, e, _, ha'⟩; simp at e

theorem stateAfter_snoc (st : TState) (w : List α) (c : α) :
    stateAfter E apos quote st (w ++ [c]) = (gentlyStep E apos quote (stateAfter E apos quote st w) c).2 := by
  simp [stateAfter]

theorem stateAfter_append (st : TState) (w v : List α) :
    stateAfter E apos quote st (w ++ v) = stateAfter E apos quote (stateAfter E apos quote st w) v := by
  simp [stateAfter]

theorem wordState_word : ∀ (v w : List α) (st : TState),
    (∀ x ∈ v, ¬ (E.space x = true ∨ x = E.lparen)) →
    WordState E apos quote w st → WordState E apos quote (w ++ v) (stateAfter E apos quote st v) := by
  intro v
  induction v with
  | nil => intro w st _ h; simpa [stateAfter] using h
  | cons c v ih =>
    intro w st hv h
    have := ih (w ++ [c]) _ (fun x hx => hv x (by simp [hx])) (wordState_step w st c (hv c (by simp)) h)
    simpa [stateAfter] using this

/-- Every string splits into a part that is empty or ends in whitespace, and a word. -/
theorem split_word (E : TitleEnv α) : ∀ s : List α, ∃ p w, s = p ++ w ∧ AtStart E p ∧
    ∀ x ∈ w, ¬ (E.space x = true ∨ x = E.lparen) := by
  have : ∀ r : List α, ∃ p w, r.reverse = p ++ w ∧ AtStart E p ∧
      ∀ x ∈ w, ¬ (E.space x = true ∨ x = E.lparen) := by
    intro r
    induction r with
    | nil => exact ⟨[], [], rfl, .inl rfl, by simp⟩
    | cons c r ih =>
      by_cases hc : E.space c = true ∨ c = E.lparen
      · exact ⟨(c :: r).reverse, [], by simp, .inr ⟨r.reverse, c, by simp, hc⟩, by simp⟩
      · obtain ⟨p, w, h1, h2, h3⟩ := ih
        refine ⟨p, w ++ [c], by simp [h1], h2, ?_⟩
        intro x hx
        rcases List.mem_append.1 hx with hx | hx
        · exact h3 x hx
        · rw [List.mem_singleton.1 hx]; exact hc
  intro s
  obtain ⟨p, w, h1, h2⟩ := this s.reverse
  exact ⟨p, w, by simpa using h1, h2⟩

/-- With no trap words, at every word start the state is the one after whitespace. -/
theorem atStart_state (s : List α) (hno : ∀ p w, WordIn E s p w → ¬ Trap E apos quote w) :
    ∀ (n : Nat) (pre suf : List α), pre.length = n → s = pre ++ suf → AtStart E pre →
      stateAfter E apos quote .afterSpace pre = .afterSpace := by
  intro n
  induction n using Nat.strongRecOn with
  | _ n ih =>
    intro pre suf hn hs hp
    rcases hp with rfl | ⟨q, x, rfl, hx⟩
    · rfl
    · have hx' : (E.space x || decide (x = E.lparen)) = true := by simpa using hx
      obtain ⟨p, w, rfl, hp, hw⟩ := split_word E q
      have h1 := ih p.length (by simp at hn; omega) p (w ++ [x] ++ suf) rfl (by rw [hs]; simp) hp
      rw [stateAfter_snoc, stateAfter_append, h1]
      by_cases hwe : w = []
      · subst hwe; simp [stateAfter, gentlyStep, hx']
      · have h2 := wordState_word (E := E) (apos := apos) (quote := quote) w [] .afterSpace hw rfl
        rw [List.nil_append] at h2
        have htrap := hno p w ⟨hp, hwe, hw, x, suf, by rw [hs]; simp, hx⟩
        generalize stateAfter E apos quote .afterSpace w = st at h2
        cases st with
        | inWord => simp [gentlyStep, hx']
        | afterSpace => exact absurd h2 hwe
        | afterQuote => exact absurd (.inl h2.2) htrap
        | afterDO =>
          obtain ⟨d, e, _, hd⟩ := h2
          exact absurd (.inr (.inl ⟨d, e, hd⟩)) htrap
        | afterDOApos =>
          obtain ⟨d, a, e, _, hd, ha⟩ := h2
          exact absurd (.inr (.inr ⟨d, a, e, hd, ha⟩)) htrap

/-- C88, the other direction, as documented: every character in one of those places is upper-cased,
provided no word of the text (other than the last) is only quote marks, a single D or O, or D' or O'
(see the counterexample), and no quote mark is whitespace or a left parenthesis or upper-cases
to D or O. -/
theorem C88_every_word (s t : List α) (a d : Option (List (List α))) (apos quote : α → Bool)
    (h : gentlyTitle E s a d = .ok t) (ha : quoteTest E.defApos a = .ok apos)
    (hd : quoteTest E.defQuote d = .ok quote)
    (hq : ∀ c, apos c = true ∨ quote c = true →
      ¬ (E.space c = true ∨ c = E.lparen) ∧ E.isDO (E.upper c) = false)
    (hDO : ∀ c, E.isDO (E.upper c) = true → ¬ (E.space c = true ∨ c = E.lparen))
    (hno : ∀ p w, WordIn E s p w → ¬ Trap E apos quote w) :
    ∃ marks, UppercasedAt E marks s t ∧
      ∀ pre c suf, s = pre ++ c :: suf →
        (marks[pre.length]? = some true ↔ MayCapitalize E apos quote pre c) := by
  unfold gentlyTitle at h
  rw [ha, hd] at h
  simp only [Except.ok.injEq] at h
  subst h
  refine ⟨marksFrom E apos quote .afterSpace s, marksFrom_spec s _, ?_⟩
  intro pre c suf hs
  subst hs
  rw [marksFrom_get]
  constructor
  · intro hm
    have := stateAfter_ok (E := E) (apos := apos) (quote := quote) pre [] .afterSpace (.inl rfl)
    exact touched_may this (by simpa using hm)
  · intro hmay
    congr 1
    rcases hmay with ⟨h1, h2⟩ | ⟨p, q, rfl, h2, h3, h4, h5⟩ | ⟨p, d, a, rfl, h2, h3, h4⟩
    · rw [atStart_state _ hno _ pre _ rfl rfl h1]
      simpa [touched] using h2
    · rw [stateAfter_append, atStart_state _ hno _ p (q ++ c :: suf) rfl (by simp) h3]
      have := wordState_word (E := E) (apos := apos) (quote := quote) q [] .afterSpace
        (fun x hx => (hq x (h4 x hx)).1) rfl
      rw [List.nil_append] at this
      generalize stateAfter E apos quote .afterSpace q = st at this
      cases st with
      | inWord => exact absurd h4 this.2.1
      | afterSpace => exact absurd this h2
      | afterQuote => simpa [touched] using h5
      | afterDO =>
        obtain ⟨d, rfl, hnq, _⟩ := this
        exact absurd (h4 d (by simp)) hnq
      | afterDOApos => rfl
    · rw [stateAfter_append, atStart_state _ hno _ p ([d, a] ++ c :: suf) rfl (by simp) h2]
      have hsp := hDO d h3
      have hdq : ¬ (apos d = true ∨ quote d = true) := by
        intro h; have := (hq d h).2; rw [this] at h3; simp at h3
      have hsp' : (E.space d || decide (d = E.lparen)) = false := by
        simp only [not_or] at hsp; simp [hsp.1, hsp.2]
      have hdq' : (apos d || quote d) = false := by
        simp only [not_or] at hdq; simp [hdq.1, hdq.2]
      have : stateAfter E apos quote .afterSpace [d, a] = .afterDOApos := by
        simp only [stateAfter, List.foldl_cons, List.foldl_nil, gentlyStep, hsp', hdq', h3, h4,
          Bool.false_eq_true, if_false, if_true]
      rw [this]; rfl

deriving instance DecidableEq for Except

/-- ASCII bytes, with the defaults. -/
def asciiTitle : TitleEnv Char :=
  { space := fun c => c == ' ' || c == '\n' || c == '\t' || c == '\r' || c == '\x0b' || c == '\x0c'
    lparen := '('
    upper := fun c => [c.toUpper]
    isDO := fun s => s == ['D'] || s == ['O'] || s == ['D', 'O'] || s == []
    defApos := fun c => c == '\''
    defQuote := fun c => c == '"' }

/-- The documented rule fails after a word that is a lone D or O, or after an opening quote mark
followed by a space: the next word is not capitalized. -/
theorem C88_counterexample_word_after_D :
    gentlyTitle asciiTitle "vitamin d is \" good\"".toList none none
      = .ok "Vitamin D is \" good\"".toList := by decide +kernel

example : gentlyTitle asciiTitle "peter o'toole 'twas (no) \"'yes isn't".toList none none
    = .ok "Peter O'Toole 'Twas (No) \"'Yes Isn't".toList := by decide +kernel

/-- The hypotheses of `C88_every_word` hold for a concrete text. -/
example : (∀ c, asciiTitle.defApos c = true ∨ asciiTitle.defQuote c = true →
      ¬ (asciiTitle.space c = true ∨ c = asciiTitle.lparen) ∧ asciiTitle.isDO (asciiTitle.upper c) = false) := by
  intro c h
  simp only [asciiTitle, beq_iff_eq] at h
  rcases h with rfl | rfl <;> decide

example : ∀ p w, WordIn asciiTitle "twas so".toList p w →
    ¬ Trap asciiTitle asciiTitle.defApos asciiTitle.defQuote w := by
  rintro p w ⟨hp, hw, hns, x, r, e, hx⟩
  have key : w = "twas".toList ∨ 0 < p.length := by
    cases p with
    | cons a p => right; simp
    | nil =>
      left
      simp only [List.nil_append, String.reduceToList] at e
      match w, hw, hns, e with
      | [], hw, _, _ => exact absurd rfl hw
      | [a], _, _, e =>
        simp only [List.cons_append, List.nil_append, List.cons.injEq] at e
        obtain ⟨_, rfl, _⟩ := e; simp [asciiTitle] at hx
      | [a, b], _, _, e =>
        simp only [List.cons_append, List.nil_append, List.cons.injEq] at e
        obtain ⟨_, _, rfl, _⟩ := e; simp [asciiTitle] at hx
      | [a, b, c], _, _, e =>
        simp only [List.cons_append, List.nil_append, List.cons.injEq] at e
        obtain ⟨_, _, _, rfl, _⟩ := e; simp [asciiTitle] at hx
      | [a, b, c, d], _, _, e =>
        simp only [List.cons_append, List.nil_append, List.cons.injEq] at e
        obtain ⟨rfl, rfl, rfl, rfl, _⟩ := e; rfl
      | a :: b :: c :: d :: f :: w, _, hns, e =>
        simp only [List.cons_append, List.cons.injEq] at e
        obtain ⟨_, _, _, _, rfl, _⟩ := e
        exact absurd (hns ' ' (by simp)) (by simp [asciiTitle])
  rcases key with rfl | hp0
  · rintro (h | ⟨d, h, _⟩ | ⟨d, a, h, _⟩)
    · have := h 't' (by simp); simp [asciiTitle] at this
    · simp at h
    · simp at h
  · -- no other word is followed by anything
    exfalso
    have hlen := congrArg List.length e
    simp only [String.reduceToList, List.length_cons, List.length_nil, List.length_append] at hlen
    have hxs : ∀ i, "twas so".toList[i]? = some ' ' → i = 4 := by
      intro i hi
      match i, hi with
      | 0, h => simp at h
      | 1, h => simp at h
      | 2, h => simp at h
      | 3, h => simp at h
      | 4, _ => rfl
      | 5, h => simp at h
      | 6, h => simp at h
      | _ + 7, h => simp at h
    have hget : ∀ i c, "twas so".toList[i]? = some c → (asciiTitle.space c = true ∨ c = '(') → i = 4 := by
      intro i c hi hc
      match i, hi with
      | 0, h => simp at h; subst h; simp [asciiTitle] at hc
      | 1, h => simp at h; subst h; simp [asciiTitle] at hc
      | 2, h => simp at h; subst h; simp [asciiTitle] at hc
      | 3, h => simp at h; subst h; simp [asciiTitle] at hc
      | 4, _ => rfl
      | 5, h => simp at h; subst h; simp [asciiTitle] at hc
      | 6, h => simp at h; subst h; simp [asciiTitle] at hc
      | _ + 7, h => simp at h
    have h1 : (p ++ w).length = 4 := by
      apply hget _ x _ hx
      rw [e]; simp
    rcases hp with rfl | ⟨q, y, rfl, hy⟩
    · simp at hp0
    · have h2 : q.length = 4 := by
        apply hget _ y _ hy
        rw [e]; simp [List.getElem?_append]
      simp at h1
      omega

end Big.Words
