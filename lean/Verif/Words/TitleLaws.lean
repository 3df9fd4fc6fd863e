import Verif.Words.SplitTitle
import Verif.Words.CombineLaws
/-! # C151: the laws of split_title_case -/
namespace Big.Words

variable {α : Type} {lo up : α → Bool}

/-- The words are determined by their join and where they are cut. -/
theorem splitTitle_unique (hd : ∀ c, ¬ (lo c = true ∧ up c = true)) {ac : Bool} {s : List α} (hs : s ≠ [])
    {qs : List (List α)} (hq : ∀ q ∈ qs, q ≠ []) (hj : qs.flatten = s)
    (hc : ∀ pre suf, s = pre ++ suf → pre ≠ [] → suf ≠ [] → (CutAfter qs pre ↔ TitleCut lo up ac pre suf)) :
    splitTitleCase lo up ac s = qs := by
  obtain ⟨h1, h2, h3⟩ := C44_split_title_case (allcaps := ac) hd s
  refine pieces_unique s _ _ (fun p hp e => hs (h2 p hp e)) hq h1 hj ?_
  intro pre suf h hp hsuf
  rw [hc pre suf h hp hsuf]
  exact h3 pre suf hp hsuf h

/-- A cut of two lists of pieces, one after the other. -/
theorem cutAfter_append {a b : List (List α)} {pre : List α} :
    CutAfter (a ++ b) pre ↔ CutAfter a pre ∨ ∃ p, pre = a.flatten ++ p ∧ CutAfter b p := by
  induction a generalizing pre with
  | nil =>
    simp only [List.nil_append, cutAfter_nil, List.flatten_nil]
    constructor
    · exact fun h => .inr ⟨pre, rfl, h⟩
    · rintro (rfl | ⟨p, rfl, h⟩)
      · exact ⟨[], b, rfl, rfl⟩
      · exact h
  | cons w a ih =>
    rw [List.cons_append, cutAfter_cons, cutAfter_cons, List.flatten_cons]
    constructor
    · rintro (h | ⟨p, rfl, h⟩)
      · exact .inl (.inl h)
      · rcases ih.1 h with h' | ⟨q, rfl, h'⟩
        · exact .inl (.inr ⟨p, rfl, h'⟩)
        · exact .inr ⟨q, by simp, h'⟩
    · rintro ((h | ⟨p, rfl, h⟩) | ⟨q, rfl, h⟩)
      · exact .inl h
      · exact .inr ⟨p, rfl, ih.2 (.inl h)⟩
      · exact .inr ⟨a.flatten ++ q, by simp, ih.2 (.inr ⟨q, rfl, h⟩)⟩

theorem cutAfter_prefix {a : List (List α)} {pre : List α} (h : CutAfter a pre) : pre <+: a.flatten := by
  obtain ⟨l₁, l₂, rfl, rfl⟩ := h
  exact ⟨l₂.flatten, by simp⟩

theorem cutAfter_flatten (a : List (List α)) : CutAfter a a.flatten := ⟨a, [], by simp, rfl⟩

theorem titleCut_mono {ac : Bool} {pre suf : List α} (h : TitleCut lo up false pre suf) : TitleCut lo up ac pre suf := by
  obtain ⟨p, a, b, t, h1, h2, h3⟩ := h
  exact ⟨p, a, b, t, h1, h2, h3.elim .inl (fun h => absurd h.1 (by simp))⟩

/-- What follows a cut does not matter for the cuts before it. -/
theorem titleCut_before (hd : ∀ c, ¬ (lo c = true ∧ up c = true)) {ac : Bool} {z z' suf : List α} (hz' : z' ≠ [])
    (hup : ∃ b t, suf = b :: t ∧ up b = true) :
    TitleCut lo up ac z (z' ++ suf) ↔ TitleCut lo up ac z z' := by
  obtain ⟨b', t', rfl, hb'⟩ := hup
  constructor
  · rintro ⟨p, a, b, t, h1, h2, h3⟩
    cases z' with
    | nil => exact absurd rfl hz'
    | cons x z' =>
      simp only [List.cons_append, List.cons.injEq] at h2
      obtain ⟨rfl, rfl⟩ := h2
      refine ⟨p, a, x, z', h1, rfl, ?_⟩
      rcases h3 with h3 | ⟨h3, h4, h5, c, t'', h6, h7⟩
      · exact .inl h3
      · cases z' with
        | nil =>
          simp only [List.nil_append, List.cons.injEq] at h6
          obtain ⟨rfl, _⟩ := h6
          exact absurd ⟨h7, hb'⟩ (hd _)
        | cons y z' =>
          simp only [List.cons_append, List.cons.injEq] at h6
          exact .inr ⟨h3, h4, h5, y, z', rfl, h6.1 ▸ h7⟩
  · rintro ⟨p, a, b, t, h1, rfl, h3⟩
    refine ⟨p, a, b, t ++ b' :: t', h1, rfl, ?_⟩
    rcases h3 with h3 | ⟨h3, h4, h5, c, t'', rfl, h7⟩
    · exact .inl h3
    · exact .inr ⟨h3, h4, h5, c, t'' ++ b' :: t', rfl, h7⟩

/-- Where a word starts, what is before and what is after it can be split separately. -/
theorem splitTitle_append (hd : ∀ c, ¬ (lo c = true ∧ up c = true)) {ac : Bool} {pre suf : List α}
    (h : TitleCut lo up ac pre suf) :
    splitTitleCase lo up ac (pre ++ suf) = splitTitleCase lo up ac pre ++ splitTitleCase lo up ac suf := by
  have hup : ∃ b t, suf = b :: t ∧ up b = true := by
    obtain ⟨p, a, b, t, _, h2, h3⟩ := h
    exact ⟨b, t, h2, h3.elim (·.2) (·.2.2.1)⟩
  have hpre : pre ≠ [] := by obtain ⟨p, a, _, _, h1, _⟩ := h; simp [h1]
  have hsuf : suf ≠ [] := by obtain ⟨_, _, h1, _⟩ := hup; simp [h1]
  obtain ⟨p1, p2, p3⟩ := C44_split_title_case (allcaps := ac) hd pre
  obtain ⟨s1, s2, s3⟩ := C44_split_title_case (allcaps := ac) hd suf
  refine splitTitle_unique hd (by simp [hpre]) ?_ (by rw [List.flatten_append, p1, s1]) ?_
  · intro q hq e
    rcases List.mem_append.1 hq with hq | hq
    · exact hpre (p2 q hq e)
    · exact hsuf (s2 q hq e)
  · intro x y hxy hx hy
    rw [cutAfter_append, p1]
    rcases List.append_eq_append_iff.1 hxy with ⟨z, rfl, rfl⟩ | ⟨z, rfl, rfl⟩
    · -- x = pre ++ z
      by_cases hz : z = []
      · subst hz
        rw [List.append_nil]
        exact ⟨fun _ => h, fun _ => .inl (by have := cutAfter_flatten (splitTitleCase lo up ac pre); rwa [p1] at this)⟩
      · have hxz : ¬ CutAfter (splitTitleCase lo up ac pre) (pre ++ z) := by
          intro hc
          have := (cutAfter_prefix hc).length_le
          rw [p1, List.length_append] at this
          exact hz (List.eq_nil_of_length_eq_zero (by omega))
        rw [titleCut_append hz]
        constructor
        · rintro (hc | ⟨p, hp, hc⟩)
          · exact absurd hc hxz
          · rw [← List.append_cancel_left hp] at hc
            exact (s3 z y hz hy rfl).1 hc
        · intro hc
          exact .inr ⟨z, rfl, (s3 z y hz hy rfl).2 hc⟩
    · -- pre = x ++ z
      by_cases hz : z = []
      · subst hz
        rw [List.append_nil] at *
        exact ⟨fun _ => h, fun _ => .inl (by have := cutAfter_flatten (splitTitleCase lo up ac x); rwa [p1] at this)⟩
      · rw [titleCut_before hd hz hup]
        constructor
        · rintro (hc | ⟨p, hp, hc⟩)
          · exact (p3 x z hx hz rfl).1 hc
          · have hl := congrArg List.length hp
            simp only [List.length_append] at hl
            exact absurd (List.eq_nil_of_length_eq_zero (by omega)) hz
        · intro hc
          exact .inl ((p3 x z hx hz rfl).2 hc)

/-- The first word and the rest of the words. -/
theorem splitTitle_head (hd : ∀ c, ¬ (lo c = true ∧ up c = true)) {ac : Bool} {s w : List α} {l : List (List α)}
    (h : splitTitleCase lo up ac s = w :: l) :
    splitTitleCase lo up ac w = [w] ∧
      (l ≠ [] → splitTitleCase lo up ac l.flatten = l ∧ TitleCut lo up ac w l.flatten ∧ s = w ++ l.flatten) := by
  obtain ⟨h1, h2, h3⟩ := C44_split_title_case (allcaps := ac) hd s
  rw [h] at h1 h2 h3
  by_cases hl : l = []
  · subst hl
    simp at h1
    subst h1
    exact ⟨h, fun h => absurd rfl h⟩
  · have hs : s ≠ [] := by
      rintro rfl
      have : splitTitleCase lo up ac [] = [[]] := rfl
      rw [this] at h
      cases h
      exact hl rfl
    have hw : w ≠ [] := fun e => hs (h2 w (by simp) e)
    have hlf : l.flatten ≠ [] := by
      cases l with
      | nil => exact absurd rfl hl
      | cons x l =>
        have : x ≠ [] := fun e => hs (h2 x (by simp) e)
        simp [this]
    rw [List.flatten_cons] at h1
    have hcut := (h3 w l.flatten hw hlf h1.symm).1 ⟨[w], l, rfl, by simp⟩
    have := splitTitle_append hd (ac := ac) (pre := w) (suf := l.flatten) hcut
    rw [h1, h] at this
    obtain ⟨w1, w2, _⟩ := C44_split_title_case (allcaps := ac) hd w
    cases hsw : splitTitleCase lo up ac w with
    | nil => rw [hsw] at w1; exact absurd w1.symm hw
    | cons x r =>
      rw [hsw, List.cons_append, List.cons.injEq] at this
      obtain ⟨rfl, hr⟩ := this
      rw [hsw] at w1 w2
      have hr0 : r = [] := by
        simp at w1
        cases r with
        | nil => rfl
        | cons y r => exact absurd (w2 y (by simp) (w1 y (by simp))) hw
      subst hr0
      exact ⟨rfl, fun _ => ⟨hr.symm, hcut, h1.symm⟩⟩

/-- C151: splitting one of the words again yields that word. -/
theorem C151_again (hd : ∀ c, ¬ (lo c = true ∧ up c = true)) (ac : Bool) (s w : List α)
    (hw : w ∈ splitTitleCase lo up ac s) : splitTitleCase lo up ac w = [w] := by
  generalize hl : splitTitleCase lo up ac s = l at hw
  induction l generalizing s with
  | nil => simp at hw
  | cons x l ih =>
    obtain ⟨h1, h2⟩ := splitTitle_head hd hl
    rcases List.mem_cons.1 hw with rfl | hw
    · exact h1
    · exact ih l.flatten (h2 (by rintro rfl; simp at hw)).1 hw

/-- C151: splitting every word found with split_allcaps false with split_allcaps true yields what splitting the text with
split_allcaps true yields. -/
theorem C151_in_two_steps (hd : ∀ c, ¬ (lo c = true ∧ up c = true)) (s : List α) :
    (splitTitleCase lo up false s).flatMap (splitTitleCase lo up true) = splitTitleCase lo up true s := by
  generalize hl : splitTitleCase lo up false s = l
  induction l generalizing s with
  | nil =>
    obtain ⟨h1, _⟩ := C44_split_title_case (allcaps := false) hd s
    rw [hl] at h1
    subst h1
    exact absurd hl (by simp [splitTitleCase])
  | cons x l ih =>
    obtain ⟨h1, h2⟩ := splitTitle_head hd hl
    by_cases hnil : l = []
    · subst hnil
      obtain ⟨h3, _⟩ := C44_split_title_case (allcaps := false) hd s
      rw [hl] at h3
      simp at h3
      simp [h3]
    · obtain ⟨h3, h4, h5⟩ := h2 hnil
      rw [List.flatMap_cons, ih l.flatten h3, h5, splitTitle_append hd (titleCut_mono h4)]

/-- C151: a text may be split in two wherever a word starts, and its parts split separately. -/
theorem C151_separately (hd : ∀ c, ¬ (lo c = true ∧ up c = true)) (ac : Bool) (a b : List (List α)) (s : List α)
    (h : splitTitleCase lo up ac s = a ++ b) (ha : a ≠ []) (hb : b ≠ []) :
    splitTitleCase lo up ac a.flatten = a ∧ splitTitleCase lo up ac b.flatten = b := by
  obtain ⟨h1, h2, h3⟩ := C44_split_title_case (allcaps := ac) hd s
  have hs : s ≠ [] := by
    rintro rfl
    have := congrArg List.length h
    have h0 : splitTitleCase lo up ac [] = [[]] := rfl
    rw [h0, List.length_append] at this
    have := List.length_pos_iff.2 ha
    have := List.length_pos_iff.2 hb
    simp at *
    omega
  rw [h] at h1 h2
  have hne : ∀ w ∈ a ++ b, w ≠ [] := fun w hw e => hs (h2 w hw e)
  have flat : ∀ c : List (List α), (∀ w ∈ c, w ≠ []) → c.flatten = [] → c = [] := by
    intro c hc hf
    cases c with
    | nil => rfl
    | cons x c => exact absurd (List.append_eq_nil_iff.1 hf).1 (hc x (by simp))
  have haf : a.flatten ≠ [] := fun e => ha (flat a (fun w hw => hne w (by simp [hw])) e)
  have hbf : b.flatten ≠ [] := fun e => hb (flat b (fun w hw => hne w (by simp [hw])) e)
  rw [List.flatten_append] at h1
  have hcut := (h3 a.flatten b.flatten haf hbf h1.symm).1 ⟨a, b, h, rfl⟩
  have happ := splitTitle_append hd (ac := ac) hcut
  rw [h1, h] at happ
  obtain ⟨p1, p2, _⟩ := C44_split_title_case (allcaps := ac) hd a.flatten
  have hp : ∀ w ∈ splitTitleCase lo up ac a.flatten, w ≠ [] := fun w hw e => haf (p2 w hw e)
  rcases List.append_eq_append_iff.1 happ with ⟨c, hc1, hc2⟩ | ⟨c, hc1, hc2⟩
  · have : c = [] := flat c (fun w hw => hp w (by rw [hc1]; simp [hw])) (by
      have := p1; rw [hc1, List.flatten_append] at this; exact List.append_right_eq_self.1 this)
    subst this
    exact ⟨by simpa using hc1, by simpa using hc2.symm⟩
  · have : c = [] := flat c (fun w hw => hne w (by rw [hc1]; simp [hw])) (by
      have := congrArg List.flatten hc1; rw [List.flatten_append, p1] at this
      exact List.append_right_eq_self.1 this.symm)
    subst this
    exact ⟨by simpa using hc1.symm, by simpa using hc2⟩

/-- The hypothesis holds of ASCII, and the words of a text are as expected. -/
example : (∀ c : Char, ¬ (c.isLower = true ∧ c.isUpper = true)) ∧
    splitTitleCase Char.isLower Char.isUpper false "aBCDef".toList = ["a".toList, "BCDef".toList] ∧
    splitTitleCase Char.isLower Char.isUpper true "BCDef".toList = ["BC".toList, "Def".toList] ∧
    splitTitleCase Char.isLower Char.isUpper true "aBCDef".toList = ["a".toList, "BC".toList, "Def".toList] := by
  refine ⟨?_, by decide +kernel, by decide +kernel, by decide +kernel⟩
  intro c
  simp only [Char.isLower, Char.isUpper, Bool.and_eq_true, decide_eq_true_eq]
  rintro ⟨⟨h1, _⟩, _, h2⟩
  have := UInt32.le_trans h1 h2
  revert this; decide

end Big.Words
