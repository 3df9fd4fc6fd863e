import Verif.Words.Spec
/-!
# C44: split_title_case (big/text.py:1377-1463)

`lo` and `up` are `islower` and `isupper` of a one-character string. No character is both.
-/
namespace Big.Words

variable {α : Type}

/-- Where the generator is, after appending a character to `word`: in the loop of lower-case
characters (text.py:1427-1438), in the loop of upper-case characters with `multiple_uppers`
(text.py:1440-1455), or in the branch for others (text.py:1456-1461). -/
inductive Mode where
  | low | upp (multiple : Bool) | other
  deriving DecidableEq, Repr

/-- The top of `while True`: the branch taken for `c` (text.py:1425-1457). -/
def enter (lo up : α → Bool) (c : α) : Mode :=
  if lo c then .low else if up c then .upp false else .other

/-- The rest of the generator: `word` is the word so far, the last argument what the iterator still
has. For text.py:1377-1463. -/
def titleLoop (lo up : α → Bool) (allcaps : Bool) : Mode → List α → List α → List (List α)
  | _, word, [] => if word.isEmpty then [] else [word]
  | .low, word, c :: r =>
    if up c then word :: titleLoop lo up allcaps (enter lo up c) [c] r
    else if lo c then titleLoop lo up allcaps .low (word ++ [c]) r
    else titleLoop lo up allcaps (enter lo up c) (word ++ [c]) r
  | .upp multiple, word, c :: r =>
    if up c then titleLoop lo up allcaps (.upp allcaps) (word ++ [c]) r
    else if lo c && multiple then
      word.dropLast :: titleLoop lo up allcaps (enter lo up c) (word.getLast?.toList ++ [c]) r
    else titleLoop lo up allcaps (enter lo up c) (word ++ [c]) r
  | .other, word, c :: r => titleLoop lo up allcaps (enter lo up c) (word ++ [c]) r

/-- split_title_case (text.py:1377-1463). -/
def splitTitleCase (lo up : α → Bool) (allcaps : Bool := true) : List α → List (List α)
  | [] => [[]]
  | c :: r => titleLoop lo up allcaps (enter lo up c) [c] r

/-- split_allcaps is True when left out (text.py:1377). -/
example (lo up : α → Bool) (s : List α) :
    (splitTitleCase lo up) s = splitTitleCase lo up true s := rfl

/-! ### specification -/

/-- A new word starts between `pre` and `suf`: at an upper-case character after a lower-case one, or,
with split_allcaps, at the last of several upper-case characters if a lower-case one follows. -/
def TitleCut (lo up : α → Bool) (allcaps : Bool) (pre suf : List α) : Prop :=
  ∃ p a b t, pre = p ++ [a] ∧ suf = b :: t ∧
    (lo a = true ∧ up b = true ∨
     allcaps = true ∧ up a = true ∧ up b = true ∧ ∃ c t', t = c :: t' ∧ lo c = true)

variable {lo up : α → Bool} {allcaps : Bool}

theorem titleCut_append {x p s : List α} (hp : p ≠ []) :
    TitleCut lo up allcaps (x ++ p) s ↔ TitleCut lo up allcaps p s := by
  have : ∃ q a, p = q ++ [a] := ⟨p.dropLast, p.getLast hp, (List.dropLast_concat_getLast hp).symm⟩
  obtain ⟨q, a, rfl⟩ := this
  constructor
  · rintro ⟨p', a', b, t, h1, h2, h3⟩
    rw [← List.append_assoc] at h1
    have := List.append_inj' h1 rfl
    simp only [List.cons.injEq, and_true] at this
    obtain ⟨_, rfl⟩ := this
    exact ⟨q, a, b, t, rfl, h2, h3⟩
  · rintro ⟨p', a', b, t, h1, h2, h3⟩
    exact ⟨x ++ p', a', b, t, by rw [h1, List.append_assoc], h2, h3⟩

/-- No word starts inside `word`. -/
def Whole (lo up : α → Bool) (allcaps : Bool) (word : List α) : Prop :=
  ∀ p a b t, word = p ++ a :: b :: t → ¬ (lo a = true ∧ up b = true) ∧
    ¬ (allcaps = true ∧ up a = true ∧ up b = true ∧ ∃ c t', t = c :: t' ∧ lo c = true)

/-- The state between two characters. -/
def TInv (lo up : α → Bool) (allcaps : Bool) (m : Mode) (word : List α) : Prop :=
  Whole lo up allcaps word ∧ ∃ w x, word = w ++ [x] ∧
    match m with
    | .low => lo x = true
    | .upp multiple => up x = true ∧
        (multiple = true ↔ allcaps = true ∧ ∃ w' y, w = w' ++ [y] ∧ up y = true)
    | .other => lo x = false ∧ up x = false

theorem whole_singleton (c : α) : Whole lo up allcaps [c] := by
  intro p a b t h
  have := congrArg List.length h
  simp at this
  omega

theorem enter_inv (c : α) : TInv lo up allcaps (enter lo up c) [c] := by
  refine ⟨whole_singleton c, [], c, rfl, ?_⟩
  unfold enter
  split
  · rename_i m h
    split at h <;> rename_i hlo
    · exact hlo
    · split at h <;> simp at h
  · rename_i m h
    split at h
    · simp at h
    · split at h
      · rename_i hu
        simp only [Mode.upp.injEq] at h
        subst h
        exact ⟨hu, by simp⟩
      · simp at h
  · rename_i h
    split at h
    · simp at h
    · split at h
      · simp at h
      · rename_i h1 h2; exact ⟨by simpa using h1, by simpa using h2⟩

theorem whole_snoc {w : List α} {x c : α} (h : Whole lo up allcaps (w ++ [x]))
    (h1 : ¬ (lo x = true ∧ up c = true))
    (h2 : ∀ w' y, w = w' ++ [y] → ¬ (allcaps = true ∧ up y = true ∧ up x = true ∧ lo c = true)) :
    Whole lo up allcaps (w ++ [x] ++ [c]) := by
  intro p a b t e
  rcases List.eq_nil_or_concat t with rfl | ⟨t', z, rfl⟩
  · -- the pair is x, c
    have e' : (w ++ [x]) ++ [c] = (p ++ [a]) ++ [b] := by simpa using e
    obtain ⟨e1, e2⟩ := List.append_inj' e' rfl
    obtain ⟨_, e3⟩ := List.append_inj' e1 rfl
    simp only [List.cons.injEq, and_true] at e2 e3
    subst e2; subst e3
    exact ⟨h1, by simp⟩
  · have e' : (w ++ [x]) ++ [c] = (p ++ a :: b :: t') ++ [z] := by simpa using e
    obtain ⟨e1, e2⟩ := List.append_inj' e' rfl
    simp only [List.cons.injEq, and_true] at e2
    subst e2
    obtain ⟨hA, hB⟩ := h p a b t' e1
    refine ⟨hA, ?_⟩
    rintro ⟨ha, hua, hub, c', t'', ht, hlo⟩
    cases t' with
    | nil =>
      simp only [List.nil_append, List.concat_eq_append, List.cons.injEq] at ht
      obtain ⟨rfl, _⟩ := ht
      have e3 : w ++ [x] = (p ++ [a]) ++ [b] := by simpa using e1
      obtain ⟨e4, e5⟩ := List.append_inj' e3 rfl
      simp only [List.cons.injEq, and_true] at e5
      subst e5
      exact h2 p a e4 ⟨ha, hua, hub, hlo⟩
    | cons d t' =>
      simp only [List.concat_eq_append, List.cons_append, List.cons.injEq] at ht
      obtain ⟨rfl, _⟩ := ht
      exact hB ⟨ha, hua, hub, d, t', rfl, hlo⟩

/-- Appending a character that starts no word and is then entered at the top. -/
theorem enter_snoc (hd : ∀ c, ¬ (lo c = true ∧ up c = true)) {w : List α} {x c : α}
    (h : Whole lo up allcaps (w ++ [x])) (h1 : ¬ (lo x = true ∧ up c = true))
    (h2 : ∀ w' y, w = w' ++ [y] → ¬ (allcaps = true ∧ up y = true ∧ up x = true ∧ lo c = true))
    (h3 : ¬ (up x = true ∧ up c = true)) :
    TInv lo up allcaps (enter lo up c) (w ++ [x] ++ [c]) := by
  refine ⟨whole_snoc h h1 h2, w ++ [x], c, rfl, ?_⟩
  obtain ⟨_, w0, x0, e, hm⟩ := enter_inv (lo := lo) (up := up) (allcaps := allcaps) c
  have ex : x0 = c := by
    cases w0 with
    | nil => simpa using e.symm
    | cons a l => have := congrArg List.length e; simp at this
  subst ex
  cases hen : enter lo up x0 with
  | low => rw [hen] at hm; exact hm
  | other => rw [hen] at hm; exact hm
  | upp b =>
    rw [hen] at hm
    refine ⟨hm.1, ?_⟩
    have hb : b = false := by
      unfold enter at hen
      split at hen
      · simp at hen
      · split at hen
        · simpa using hen.symm
        · simp at hen
    subst hb
    simp only [Bool.false_eq_true, false_iff]
    rintro ⟨_, w', y, e', hy⟩
    obtain ⟨_, e2⟩ := List.append_inj' e' rfl
    simp only [List.cons.injEq, and_true] at e2
    subst e2
    exact h3 ⟨hy, hm.1⟩

theorem titleLoop_spec (hd : ∀ c, ¬ (lo c = true ∧ up c = true)) : ∀ (rest : List α) (m : Mode)
    (word : List α), TInv lo up allcaps m word →
    (titleLoop lo up allcaps m word rest).flatten = word ++ rest ∧
    (∀ w ∈ titleLoop lo up allcaps m word rest, w ≠ []) ∧
    ∀ pre suf, pre ≠ [] → suf ≠ [] → pre ++ suf = word ++ rest →
      (CutAfter (titleLoop lo up allcaps m word rest) pre ↔ TitleCut lo up allcaps pre suf) := by
  intro rest
  induction rest with
  | nil =>
    intro m word hinv
    obtain ⟨hw, w, x, rfl, _⟩ := hinv
    have e : titleLoop lo up allcaps m (w ++ [x]) [] = [w ++ [x]] := by simp [titleLoop]
    rw [e]
    refine ⟨by simp, by simp, ?_⟩
    intro pre suf hp hs h
    rw [List.append_nil] at h
    constructor
    · intro hc
      rcases cutAfter_cons.1 hc with h0 | ⟨p, h1, h2⟩
      · exact absurd h0 hp
      · rw [cutAfter_nil] at h2
        subst h2
        rw [List.append_nil] at h1
        subst h1
        exact absurd (by simpa using h) hs
    · rintro ⟨p, a, b, t, rfl, rfl, hcut⟩
      have := hw p a b t (by rw [← h]; simp)
      rcases hcut with hc | hc
      · exact absurd hc this.1
      · exact absurd hc this.2
  | cons c r ih =>
    -- the three things that can happen
    have stay : ∀ (m m' : Mode) (word : List α),
        titleLoop lo up allcaps m word (c :: r) = titleLoop lo up allcaps m' (word ++ [c]) r →
        TInv lo up allcaps m' (word ++ [c]) →
        (titleLoop lo up allcaps m word (c :: r)).flatten = word ++ c :: r ∧
        (∀ w ∈ titleLoop lo up allcaps m word (c :: r), w ≠ []) ∧
        ∀ pre suf, pre ≠ [] → suf ≠ [] → pre ++ suf = word ++ c :: r →
          (CutAfter (titleLoop lo up allcaps m word (c :: r)) pre ↔
            TitleCut lo up allcaps pre suf) := by
      intro m m' word e hinv
      obtain ⟨h1, h2, h3⟩ := ih m' _ hinv
      rw [e]
      refine ⟨by rw [h1]; simp, h2, ?_⟩
      intro pre suf hp hs h
      exact h3 pre suf hp hs (by rw [h]; simp)
    have cut : ∀ (m m' : Mode) (word w1 w2 : List α), word = w1 ++ w2 → w1 ≠ [] →
        titleLoop lo up allcaps m word (c :: r)
          = w1 :: titleLoop lo up allcaps m' (w2 ++ [c]) r →
        TInv lo up allcaps m' (w2 ++ [c]) →
        (∀ s, TitleCut lo up allcaps w1 (w2 ++ c :: s)) →
        (∀ p q, w1 = p ++ q → p ≠ [] → q ≠ [] → ¬ TitleCut lo up allcaps p (q ++ (w2 ++ c :: r))) →
        (titleLoop lo up allcaps m word (c :: r)).flatten = word ++ c :: r ∧
        (∀ w ∈ titleLoop lo up allcaps m word (c :: r), w ≠ []) ∧
        ∀ pre suf, pre ≠ [] → suf ≠ [] → pre ++ suf = word ++ c :: r →
          (CutAfter (titleLoop lo up allcaps m word (c :: r)) pre ↔
            TitleCut lo up allcaps pre suf) := by
      intro m m' word w1 w2 hword hne e hinv hcut hno
      obtain ⟨h1, h2, h3⟩ := ih m' _ hinv
      rw [e]
      refine ⟨by simp [h1, hword], ?_, ?_⟩
      · intro w hw
        rcases List.mem_cons.1 hw with rfl | hw
        · exact hne
        · exact h2 w hw
      · intro pre suf hp hs h
        rw [hword, List.append_assoc] at h
        rw [cutAfter_cons]
        rcases List.append_eq_append_iff.1 h with ⟨a, e1, e2⟩ | ⟨a, e1, e2⟩
        · -- pre ends within w1
          by_cases ha : a = []
          · subst ha
            rw [List.append_nil] at e1
            subst e1
            rw [List.nil_append] at e2
            subst e2
            exact ⟨fun _ => hcut r, fun _ => .inr ⟨[], by simp, [], _, rfl, rfl⟩⟩
          · constructor
            · rintro (h0 | ⟨p, hp', _⟩)
              · exact absurd h0 hp
              · exfalso
                rw [hp', List.append_assoc] at e1
                have := congrArg List.length e1
                simp only [List.length_append] at this
                have := List.length_pos_iff.2 ha
                omega
            · intro hc
              rw [e2] at hc
              exact absurd hc (hno pre a e1 hp ha)
        · by_cases ha : a = []
          · subst ha
            rw [List.append_nil] at e1
            subst e1
            rw [List.nil_append] at e2
            rw [← e2]
            exact ⟨fun _ => hcut r, fun _ => .inr ⟨[], by simp, [], _, rfl, rfl⟩⟩
          · subst e1
            rw [titleCut_append ha, ← h3 a suf ha hs (by rw [← e2]; simp)]
            constructor
            · rintro (h0 | ⟨p, hp', hc⟩)
              · exact absurd h0 hp
              · rw [List.append_cancel_left hp']; exact hc
            · intro hc; exact .inr ⟨a, rfl, hc⟩
    intro m word hinv
    obtain ⟨hw, w, x, rfl, hm⟩ := hinv
    cases m with
    | low =>
      have hlx : lo x = true := hm
      have hux : ¬ up x = true := fun h => hd x ⟨hlx, h⟩
      by_cases huc : up c = true
      · -- a new word
        refine cut .low (enter lo up c) (w ++ [x]) (w ++ [x]) [] (by simp) (by simp)
          (by simp [titleLoop, huc]) (enter_inv c) ?_ ?_
        · intro s
          exact ⟨w, x, c, s, rfl, rfl, .inl ⟨hlx, huc⟩⟩
        · rintro p q e hp hq ⟨p', a, b, t, rfl, e2, hc⟩
          cases q with
          | nil => exact absurd rfl hq
          | cons b' q =>
            obtain ⟨rfl, rfl⟩ := List.cons.inj e2
            obtain ⟨hA, hB⟩ := hw p' a b' q (by rw [e]; simp)
            rcases hc with hc | ⟨h1, h2, h3, c', t', h4, h5⟩
            · exact hA hc
            · cases q with
              | nil =>
                -- b' is the last, lower-case, character
                have : x = b' := by
                  have := List.append_inj' e rfl
                  simpa using this.2
                exact hux (this ▸ h3)
              | cons d q =>
                obtain ⟨rfl, _⟩ := List.cons.inj h4
                exact hB ⟨h1, h2, h3, d, q, rfl, h5⟩
      · by_cases hlc : lo c = true
        · refine stay .low .low _ (by simp [titleLoop, huc, hlc]) ⟨whole_snoc hw ?_ ?_, w ++ [x], c, rfl, hlc⟩
          · exact fun h => huc h.2
          · exact fun _ _ _ h => hux h.2.2.1
        · refine stay .low (enter lo up c) _ (by simp [titleLoop, huc, hlc]) (enter_snoc hd hw ?_ ?_ ?_)
          · exact fun h => huc h.2
          · exact fun _ _ _ h => hux h.2.2.1
          · exact fun h => huc h.2
    | upp mul =>
      obtain ⟨hux, hmul⟩ := hm
      have hlx : ¬ lo x = true := fun h => hd x ⟨h, hux⟩
      by_cases huc : up c = true
      · have hlc : ¬ lo c = true := fun h => hd c ⟨h, huc⟩
        refine stay (.upp mul) (.upp allcaps) _ (by simp [titleLoop, huc])
          ⟨whole_snoc hw (fun h => hlx h.1) (fun _ _ _ h => hlc h.2.2.2), w ++ [x], c, rfl, huc, ?_⟩
        exact ⟨fun h => ⟨h, w, x, rfl, hux⟩, fun h => h.1⟩
      · by_cases hlc : lo c = true ∧ mul = true
        · obtain ⟨hlc, rfl⟩ := hlc
          obtain ⟨hall, w', y, rfl, hy⟩ := hmul.1 rfl
          refine cut (.upp true) (enter lo up c) (w' ++ [y] ++ [x]) (w' ++ [y]) [x] rfl (by simp)
            ?_ ?_ ?_ ?_
          · simp [titleLoop, huc, hlc]
          · have : [x] ++ [c] = [] ++ [x] ++ [c] := by simp
            rw [this]
            refine enter_snoc hd (by simpa using whole_singleton x) (fun h => hlx h.1) ?_ (fun h => huc h.2)
            intro w' y e
            have := congrArg List.length e
            simp at this
          · intro s
            exact ⟨w', y, x, c :: s, rfl, rfl, .inr ⟨hall, hy, hux, c, s, rfl, hlc⟩⟩
          · rintro p q e hp hq ⟨p', a, b, t, rfl, e2, hc⟩
            cases q with
            | nil => exact absurd rfl hq
            | cons b' q =>
              obtain ⟨rfl, rfl⟩ := List.cons.inj e2
              obtain ⟨hA, hB⟩ := hw p' a b' (q ++ [x]) (by rw [e]; simp)
              rcases hc with hc | ⟨h1, h2, h3, c', t', h4, h5⟩
              · exact hA hc
              · cases q with
                | nil =>
                  obtain ⟨rfl, _⟩ := List.cons.inj h4
                  exact hlx h5
                | cons d q =>
                  obtain ⟨rfl, _⟩ := List.cons.inj h4
                  exact hB ⟨h1, h2, h3, d, q ++ [x], rfl, h5⟩
        · refine stay (.upp mul) (enter lo up c) _ ?_ (enter_snoc hd hw (fun h => hlx h.1) ?_ (fun h => huc h.2))
          · simp only [titleLoop, huc, Bool.false_eq_true, if_false, Bool.and_eq_true, hlc]
          · rintro w' y rfl ⟨h1, h2, h3, h4⟩
            exact hlc ⟨h4, hmul.2 ⟨h1, w', y, rfl, h2⟩⟩
    | other =>
      have hux : ¬ up x = true := by simp [hm.2]
      have hlx : ¬ lo x = true := by simp [hm.1]
      exact stay .other (enter lo up c) _ (by simp [titleLoop]) (enter_snoc hd hw (fun h => hlx h.1)
        (fun _ _ _ h => hux h.2.2.1) (fun h => hux h.1))

/-- C44: joining the words recreates the string; no word is empty, unless the string is, which gives
one empty word; and a word starts, inside the string, exactly where an upper-case character follows a
lower-case one, or with split_allcaps where the last of several upper-case characters is followed by
a lower-case one. -/
theorem C44_split_title_case (hd : ∀ c, ¬ (lo c = true ∧ up c = true)) (s : List α) :
    (splitTitleCase lo up allcaps s).flatten = s ∧
    (∀ w ∈ splitTitleCase lo up allcaps s, w = [] → s = []) ∧
    ∀ pre suf, pre ≠ [] → suf ≠ [] → s = pre ++ suf →
      (CutAfter (splitTitleCase lo up allcaps s) pre ↔
        ∃ p a b t, pre = p ++ [a] ∧ suf = b :: t ∧
          (lo a = true ∧ up b = true ∨
           allcaps = true ∧ up a = true ∧ up b = true ∧ ∃ c t', t = c :: t' ∧ lo c = true)) := by
  cases s with
  | nil =>
    refine ⟨rfl, by simp, ?_⟩
    intro pre suf hp _ h
    exact absurd (List.append_eq_nil_iff.1 h.symm).1 hp
  | cons c r =>
    obtain ⟨h1, h2, h3⟩ := titleLoop_spec hd r (enter lo up c) [c] (enter_inv c)
    refine ⟨h1, fun w hw e => absurd e (h2 w hw), ?_⟩
    intro pre suf hp hs h
    exact h3 pre suf hp hs h.symm

/-- The claim as listed: every split falls immediately before an upper-case character, and with
split_allcaps false immediately after a lower-case one. -/
theorem C44_splits_before_capitals (hd : ∀ c, ¬ (lo c = true ∧ up c = true)) (s pre suf : List α)
    (hp : pre ≠ []) (hs : suf ≠ []) (h : s = pre ++ suf)
    (hc : CutAfter (splitTitleCase lo up allcaps s) pre) :
    (∃ b t, suf = b :: t ∧ up b = true) ∧ (allcaps = false → ∃ p a, pre = p ++ [a] ∧ lo a = true) := by
  obtain ⟨p, a, b, t, h1, h2, h3⟩ := ((C44_split_title_case hd s).2.2 pre suf hp hs h).1 hc
  refine ⟨⟨b, t, h2, ?_⟩, ?_⟩
  · rcases h3 with h3 | h3
    · exact h3.2
    · exact h3.2.2.1
  · intro hall
    rcases h3 with h3 | h3
    · exact ⟨p, a, h1, h3.1⟩
    · rw [hall] at h3; simp at h3

/-- The hypothesis, for ASCII. -/
example : ∀ c : Char, ¬ (c.isLower = true ∧ c.isUpper = true) := by
  intro c
  simp only [Char.isLower, Char.isUpper, Bool.and_eq_true, decide_eq_true_eq]
  rintro ⟨⟨h1, _⟩, _, h2⟩
  have := UInt32.le_trans h1 h2
  revert this; decide

example : splitTitleCase Char.isLower Char.isUpper true "WhenIWasATeapot".toList
    = ["When".toList, "I".toList, "Was".toList, "A".toList, "Teapot".toList] := by decide +kernel

example : splitTitleCase Char.isLower Char.isUpper false "WhenIWasATeapot".toList
    = ["When".toList, "IWas".toList, "ATeapot".toList] := by decide +kernel

end Big.Words
