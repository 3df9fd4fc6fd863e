import Verif.Wrap.SplitLines
/-! # C53: split_text_with_code -/
namespace Big.Wrap

variable {α : Type} [DecidableEq α] {E : Env α} {o : Opt}

/-! ### the layout -/

/-- The state between lines for a given last kind and number of blank lines. -/
def Agrees (L : LState α) (prev : Kind) (blanks : Nat) : Prop :=
  match prev with
  | .blank => L.prev = none ∧ L.start = true ∧ L.pend = 0 ∧ L.words = []
  | .text => L.prev = some .text ∧ L.start = decide (blanks ≠ 0)
  | .code => L.prev = some .code ∧ L.start = false ∧ L.pend = blanks + 1

theorem before_eq {L : LState α} {prev : Kind} {blanks : Nat} (h : Agrees L prev blanks) (line : List α)
    (hk : kind E o line ≠ .blank) (hp : prev = .text → kind E o line = .code → L.pend = 0) :
    before E o L line = L.words ++ breaks E prev blanks (kind E o line) ∧
      ¬ (kind E o line = .code ∧ (opened E L).2 = some .text ∧ L.pend ≠ 0) := by
  unfold before opened
  cases prev with
  | blank =>
    obtain ⟨h1, h2, h3, h4⟩ := h
    cases hk1 : kind E o line <;> simp [h1, h2, h3, h4, breaks]
  | text =>
    obtain ⟨h1, h2⟩ := h
    by_cases hb : blanks = 0
    · cases hk1 : kind E o line with
      | blank => exact absurd hk1 hk
      | text => simp [h1, h2, hb, breaks]
      | code => simp [h1, h2, hb, breaks, hp rfl hk1]
    · cases hk1 : kind E o line with
      | blank => exact absurd hk1 hk
      | text => simp [h1, h2, hb, breaks]
      | code => simp [h1, h2, hb, breaks, hp rfl hk1]
  | code =>
    obtain ⟨h1, h2, h3⟩ := h
    cases hk1 : kind E o line with
    | blank => exact absurd hk1 hk
    | text => simp [h1, h2, breaks]
    | code => simp [h1, h2, h3, breaks]

/-- No line of code from here on, if `code` still holds newlines and a text came after. -/
def Safe (E : Env α) (o : Opt) (L : LState α) (prev : Kind) (lines : List (List α)) : Prop :=
  prev = .text → L.pend ≠ 0 → ∀ l ∈ lines, kind E o l ≠ .code

theorem byLines_layout : ∀ (init : List (List α)) (last : List α) (L : LState α) (prev : Kind) (blanks : Nat),
    Agrees L prev blanks → Safe E o L prev (init ++ [last]) →
    (prev = .code → ¬ ∃ b c, [b, c].Sublist (init ++ [last]) ∧ kind E o b = .text ∧ kind E o c = .code) →
    CodeAtMostOnce E o (init ++ [last]) → kind E o last ≠ .code →
    (stepLines E o L init).bind (fun L => finish E o L last) =
      .ok (L.words ++ layout E o prev blanks (init ++ [last])) := by
  intro init
  induction init with
  | nil =>
    intro last L prev blanks hA hS _ _ hlast
    simp only [stepLines, List.nil_append, Except.bind]
    unfold finish layout
    cases hk : kind E o last with
    | blank => simp [layout]
    | code => exact absurd hk hlast
    | text =>
      have := (before_eq hA last (by rw [hk]; simp) (by rw [hk]; simp)).1
      dsimp only
      rw [this, hk]; simp [layout]
  | cons line init ih =>
    intro last L prev blanks hA hS hcode honce hlast
    have honce' : CodeAtMostOnce E o (init ++ [last]) := by
      rintro ⟨a, b, c, h1, h2⟩
      exact honce ⟨a, b, c, h1.cons line, h2⟩
    unfold stepLines
    rw [List.cons_append, layout]
    unfold lineStep
    cases hk : kind E o line with
    | blank =>
      dsimp only
      by_cases hs : L.start = true
      · rw [if_pos hs]
        refine ih last L prev (blanks + 1) ?_ (fun h1 h2 l hl => hS h1 h2 l (by simp at hl ⊢; grind)) ?_ honce' hlast
        · cases prev with
          | blank => exact hA
          | text => exact ⟨hA.1, by rw [hs]; simp⟩
          | code => have := hA.2.1; rw [hs] at this; simp at this
        · rintro hp ⟨b, c, h1, h2⟩
          exact hcode hp ⟨b, c, h1.cons line, h2⟩
      · rw [if_neg hs]
        by_cases hp : L.prev = some .code
        · rw [if_pos hp]
          refine (ih last _ prev (blanks + 1) ?_ ?_ ?_ honce' hlast).trans ?_
          · cases prev with
            | blank => exact absurd hA.2.1 hs
            | text => have := hA.1; rw [hp] at this; simp at this
            | code => exact ⟨hp, by simpa using hs, by simp [hA.2.2]⟩
          · intro h1 h2 l hl
            subst h1; have := hA.1; rw [hp] at this; simp at this
          · rintro hp ⟨b, c, h1, h2⟩
            exact hcode hp ⟨b, c, h1.cons line, h2⟩
          · rfl
        · rw [if_neg hp]
          refine (ih last _ prev (blanks + 1) ?_ ?_ ?_ honce' hlast).trans ?_
          · cases prev with
            | blank => exact absurd hA.2.1 hs
            | text => exact ⟨hA.1, by simp⟩
            | code => exact absurd hA.1 hp
          · intro h1 h2 l hl
            exact hS h1 h2 l (by simp at hl ⊢; grind)
          · rintro hp ⟨b, c, h1, h2⟩
            exact hcode hp ⟨b, c, h1.cons line, h2⟩
          · rfl
    | text =>
      dsimp only
      have hb := (before_eq hA line (by rw [hk]; simp) (by rw [hk]; simp)).1
      rw [ih last ⟨before E o L line ++ elements E o line, some .text, false, L.pend⟩ .text 0 ⟨rfl, rfl⟩ ?_ (by simp) honce' hlast]
      · rw [hb, hk]; simp
      · intro _ h2 l hl hkl
        cases prev with
        | blank => exact h2 hA.2.2.1
        | text => exact hS rfl h2 l (by simp at hl ⊢; grind) hkl
        | code => exact hcode rfl ⟨line, l, (List.singleton_sublist.2 hl).cons_cons line, hk, hkl⟩
    | code =>
      dsimp only
      have hpend : prev = .text → kind E o line = .code → L.pend = 0 := by
        intro h1 h2
        by_cases h0 : L.pend = 0
        · exact h0
        · exact absurd h2 (hS h1 h0 line (by simp))
      have hb := before_eq hA line (by rw [hk]; simp) hpend
      rw [if_neg (fun h => hb.2 ⟨hk, h⟩)]
      dsimp only
      rw [ih last ⟨before E o L line ++ elements E o line, some .code, false, 1⟩ .code 0 ⟨rfl, rfl, rfl⟩ (by intro h; simp at h) ?_ honce' hlast]
      · rw [hb.1, hk]; simp
      · rintro - ⟨b, c, h1, h2⟩
        exact honce ⟨line, b, c, h1.cons_cons line, hk, h2⟩

/-- C53: if no code comes after text that comes after code, and the last line is not an unfinished line of
code: the result is exactly the layout, for the lines of the string: the words of the text lines, the
code lines whole (whitespace kept, tabs expanded), and between lines the breaks described by
`breaks`; one empty string if there is nothing. -/
theorem C53_layout (hnl : E.isSpace E.nl = true) (htab : E.isSpace E.tab = true) (hne : E.tab ≠ E.sp)
    (ht : 0 < o.tabWidth) (s : List α) (hc : ∀ l ∈ linesOf E.nl s, Countable E o l)
    (honce : CodeAtMostOnce E o (linesOf E.nl s)) (hlast : ∀ l, (linesOf E.nl s).getLast? = some l → kind E o l ≠ .code) :
    splitTextWithCode E o s =
      .ok (let out := layout E o .blank 0 (linesOf E.nl s); if out = [] then [[]] else out) := by
  obtain ⟨init, last, h1, h2⟩ := linesOf_spec E.nl s
  have hno := linesOf_no_nl E.nl s
  rw [h1] at hc honce hlast hno ⊢
  rw [h2, split_eq hnl htab ht hne init last (fun l hl => ⟨hno l hl, hc l hl⟩)]
  have := byLines_layout (E := E) (o := o) init last LState.init .blank 0 ⟨rfl, rfl, rfl, rfl⟩ (by intro h; simp at h) (by simp) honce
    (hlast last (by simp))
  unfold byLines
  rw [this]
  rfl

/-! ### errors -/

theorem callAll_line_error (hnl : E.isSpace E.nl = true)
    (ht : 0 < o.tabWidth) (hne : E.tab ≠ E.sp) {b : Splitter α} {L : LState α} (hR : Rel E b L) (line : List α)
    (hc : ¬ Countable E o line) : ∃ e, callAll E o b (lineToks E.isSpace [] [] line) = .error e := by
  unfold Countable at hc
  have ha : o.allowCode = true := by
    by_cases h : o.allowCode = true
    · exact h
    · exact absurd (fun h' => absurd h' h) hc
  have hb : kind E o line ≠ .blank := by
    intro h
    exact hc (fun _ h' => absurd h h')
  have hc' : ¬ ((∀ c ∈ line.takeWhile E.isSpace, c = E.tab ∨ c = E.sp) ∧
    (kind E o line = .code → ∀ c ∈ rstrip E.isSpace line, E.isSpace c = true → c = E.tab ∨ c = E.sp)) :=
    fun h => hc (fun _ _ => h)
  have htk := lineToks_toks E line
  have htabs := @tabsSpaces_toks _ _ E line
  rcases lineToks_head E.isSpace [] line (by simp) with ⟨h1, h2⟩ | ⟨h1, w, ts, h2⟩
  · exact absurd (kind_blank.2 h1) hb
  rw [h2] at htk htabs ⊢
  simp only [List.nil_append] at *
  generalize hl : line.takeWhile E.isSpace = l at *
  have hw := htk (l, w) (by simp)
  obtain ⟨b0, k1, k2, k3, k4, k5, k6⟩ := call_first (o := o) hnl hR l w hw.2.2
  rw [callAll_cons, k6]
  unfold lineStart
  rw [if_neg (word_ne_nl hnl hw.2.2), if_pos ha]
  by_cases hind : TabsSpaces E l
  · rw [indentCol_eq E o ht hne l 0 hind]
    dsimp only
    have hkind : kind E o line = if ((0 + (expandTabs E.tab E.sp o.tabWidth 0 l).length : Nat) : Int) ≥ o.codeIndent
        then .code else .text := by
      unfold kind; rw [if_neg (by rw [h1]; simp), hl, Nat.zero_add]
      simp [ha]
    by_cases hcol : ((0 + (expandTabs E.tab E.sp o.tabWidth 0 l).length : Nat) : Int) ≥ o.codeIndent
    · rw [if_pos hcol] at hkind ⊢
      have hbad : ¬ ∀ t ∈ (l, w) :: ts, TabsSpaces E t.1 := by
        intro h
        exact hc' ⟨hind, fun _ => htabs.2 h⟩
      have hcode : ∀ m0 : Splitter α, ∃ e, (codeLineStart E o m0 l w).bind (fun m => callAll E o m ts) = .error e := by
        intro m0
        obtain ⟨e, he⟩ := callAll_code_error E o hnl ((l, w) :: ts)
          { m0 with prev := some .code, col := 0, st := .inCodeLine } rfl htk hbad
        rw [callAll_cons] at he
        exact ⟨e, he⟩
      unfold startCode
      by_cases hp : b0.prev = some .text
      · rw [if_pos hp]
        by_cases hq : b0.code ≠ []
        · rw [if_pos hq]; exact ⟨_, rfl⟩
        · rw [if_neg hq]; exact hcode _
      · rw [if_neg hp]; exact hcode _
    · rw [if_neg hcol] at hkind
      exact absurd ⟨hind, fun h => by rw [hkind] at h; simp at h⟩ hc'
  · obtain ⟨e, he⟩ := indentCol_error E o l 0 hind
    rw [he]; exact ⟨e, rfl⟩

/-- C53: whitespace that is not a tab, a space or a newline, in the indent of a line or before the end of a
line of code, makes split_text_with_code raise an exception (if allow_code is true). -/
theorem C53_raises (hnl : E.isSpace E.nl = true) (htab : E.isSpace E.tab = true) (hne : E.tab ≠ E.sp)
    (ht : 0 < o.tabWidth) (s : List α) (hc : ¬ ∀ l ∈ linesOf E.nl s, Countable E o l) :
    ∃ e, splitTextWithCode E o s = .error e := by
  obtain ⟨init, last, h1, h2⟩ := linesOf_spec E.nl s
  have hno := linesOf_no_nl E.nl s
  rw [h1] at hc hno
  rw [h2]
  clear h1 h2 s
  have key : ∀ (init : List (List α)) (b : Splitter α) (L : LState α), Rel E b L →
      (∀ l ∈ init ++ [last], E.nl ∉ l) → (¬ ∀ l ∈ init ++ [last], Countable E o l) →
      ∃ e, (writeAll E o b (init.flatMap (· ++ [E.nl]) ++ last)).bind (fun m => (close E o m).map (·.words)) = .error e := by
    intro init
    induction init with
    | nil =>
      intro b L hR hno hc
      simp only [List.nil_append, List.mem_singleton, forall_eq] at hc hno
      simp only [List.flatMap_nil, List.nil_append]
      rw [writeAll_last E o last b hno hR.leading hR.word]
      obtain ⟨e, he⟩ := callAll_line_error hnl ht hne hR last hc
      rw [he]; exact ⟨e, rfl⟩
    | cons line init ih =>
      intro b L hR hno hc
      simp only [List.flatMap_cons]
      rw [List.append_assoc, writeAll_append]
      by_cases hl : Countable E o line
      · rcases step_line hnl htab ht hne hR line (hno line (by simp)) hl with ⟨e, g1, g2⟩ | ⟨b', L', g1, g2, g3⟩
        · rw [g1]; exact ⟨e, rfl⟩
        · rw [g1]
          dsimp only
          refine ih b' L' g3 (fun l h => hno l (by simp at h ⊢; grind)) ?_
          intro h
          apply hc
          intro l hl'
          rcases List.mem_cons.1 hl' with rfl | h'
          · exact hl
          · exact h l h'
      · rw [writeAll_line_nl E o hnl line b (hno line (by simp)) hR.leading hR.word, callAll_append]
        obtain ⟨e, he⟩ := callAll_line_error hnl ht hne hR line hl
        rw [he]; exact ⟨e, rfl⟩
  have hR : Rel E (newSplitter : Splitter α) LState.init := ⟨rfl, rfl, rfl, rfl, rfl, rfl⟩
  obtain ⟨e, he⟩ := key init _ _ hR hno hc
  refine ⟨e, ?_⟩
  unfold splitTextWithCode
  cases h1 : writeAll E o newSplitter (init.flatMap (· ++ [E.nl]) ++ last) with
  | error e' => rw [h1] at he; simpa [Except.bind] using he
  | ok m =>
    rw [h1] at he
    dsimp only [Except.bind] at he ⊢
    cases h2 : close E o m with
    | error e' => rw [h2] at he; simpa [Except.map] using he
    | ok m' => rw [h2] at he; simp [Except.map] at he

/-! ### no word is lost -/

/-- Not one of the breaks that are inserted. -/
def NotBreak (E : Env α) (w : List α) : Bool := w ≠ [E.nl] ∧ w ≠ [E.nl, E.nl]

theorem splitWords_good (isSpace : α → Bool) (line : List α) :
    ∀ w ∈ splitWords isSpace [] line, w ≠ [] ∧ ∀ c ∈ w, isSpace c = false := by
  intro w hw
  rw [← lineToks_words isSpace [] [] line] at hw
  obtain ⟨t, ht, rfl⟩ := List.mem_map.1 hw
  exact (lineToks_good isSpace [] [] line (by simp) (by simp) t ht).2

theorem filter_expandTabs {isSpace : α → Bool} {tab sp : α} (htab : isSpace tab = true) (hsp : isSpace sp = true)
    (n col : Nat) (s : List α) :
    (expandTabs tab sp n col s).filter (fun c => !isSpace c) = s.filter (fun c => !isSpace c) := by
  induction s generalizing col with
  | nil => rfl
  | cons c s ih =>
    unfold expandTabs
    by_cases hc : c = tab
    · rw [if_pos hc, List.filter_append, ih]
      subst hc
      simp [htab, hsp]
    · rw [if_neg hc, List.filter_cons, ih, List.filter_cons]

omit [DecidableEq α] in
theorem filter_rstrip (isSpace : α → Bool) (s : List α) :
    (rstrip isSpace s).filter (fun c => !isSpace c) = s.filter (fun c => !isSpace c) := by
  have h : ∀ s : List α, (s.dropWhile isSpace).filter (fun c => !isSpace c) = s.filter (fun c => !isSpace c) := by
    intro s
    induction s with
    | nil => rfl
    | cons c s ih =>
      rw [List.dropWhile_cons]
      by_cases hc : isSpace c = true
      · rw [if_pos hc, ih]; simp [hc]
      · rw [if_neg hc]
  unfold rstrip
  rw [List.filter_reverse, h, ← List.filter_reverse, List.reverse_reverse]

theorem filter_splitWords (isSpace : α → Bool) (word line : List α) (h : ∀ c ∈ word, isSpace c = false) :
    (splitWords isSpace word line).flatten = (word ++ line).filter (fun c => !isSpace c) := by
  induction line generalizing word with
  | nil =>
    unfold splitWords
    have : word.filter (fun c => !isSpace c) = word := List.filter_eq_self.2 (by simpa using h)
    split
    · rename_i h'; subst h'; rfl
    · simp [this]
  | cons c s ih =>
    unfold splitWords
    have hw : word.filter (fun c => !isSpace c) = word := List.filter_eq_self.2 (by simpa using h)
    by_cases hc : isSpace c = true
    · rw [if_pos hc, List.flatten_append, ih [] (by simp)]
      simp only [List.nil_append, List.filter_append, List.filter_cons, hc, hw]
      by_cases hw' : word = []
      · simp [hw']
      · simp [hw']
    · rw [if_neg hc, ih _ (by intro x hx; rcases List.mem_append.1 hx with h' | h'
                              · exact h x h'
                              · simp only [List.mem_singleton] at h'; rw [h']; simpa using hc)]
      simp

/-- The characters of the elements for a line that are not whitespace are those of the line. -/
theorem filter_elements (htab : E.isSpace E.tab = true) (hsp : E.isSpace E.sp = true) (line : List α) :
    ((elements E o line).flatten).filter (fun c => !E.isSpace c) = line.filter (fun c => !E.isSpace c) := by
  unfold elements
  cases hk : kind E o line with
  | blank =>
    have := kind_blank.1 hk
    rw [List.all_eq_true] at this
    simp only [List.flatten_nil, List.filter_nil]
    symm
    rw [List.filter_eq_nil_iff]
    intro c hc; simp [this c hc]
  | text =>
    dsimp only
    rw [filter_splitWords _ _ _ (by simp)]
    simp
  | code =>
    simp only [List.flatten_cons, List.flatten_nil, List.append_nil]
    unfold codeText
    split
    · rw [filter_expandTabs htab hsp, filter_rstrip]
    · exact filter_rstrip _ _

theorem elements_notBreak (hnl : E.isSpace E.nl = true) (htab : E.isSpace E.tab = true) (hsp : E.isSpace E.sp = true)
    (line : List α) : ∀ w ∈ elements E o line, NotBreak E w = true := by
  intro w hw
  have hgood : ∃ c ∈ w, E.isSpace c = false := by
    cases hk : kind E o line with
    | blank => unfold elements at hw; rw [hk] at hw; simp at hw
    | text =>
      unfold elements at hw; rw [hk] at hw
      obtain ⟨h1, h2⟩ := splitWords_good E.isSpace line w hw
      cases w with
      | nil => exact absurd rfl h1
      | cons c w => exact ⟨c, by simp, h2 c (by simp)⟩
    | code =>
      have h := filter_elements (o := o) htab hsp line
      have hne : line.filter (fun c => !E.isSpace c) ≠ [] := by
        intro h'
        rw [List.filter_eq_nil_iff] at h'
        have : kind E o line = .blank := kind_blank.2 (by
          rw [List.all_eq_true]; intro c hc; have := h' c hc; simpa using this)
        rw [this] at hk; simp at hk
      unfold elements at hw h
      rw [hk] at hw h
      simp only [List.mem_singleton] at hw
      simp only [List.flatten_cons, List.flatten_nil, List.append_nil] at h
      rw [← hw] at h
      rw [← h] at hne
      obtain ⟨c, hc⟩ := List.exists_mem_of_ne_nil _ hne
      rw [List.mem_filter] at hc
      exact ⟨c, hc.1, by simpa using hc.2⟩
  obtain ⟨c, h1, h2⟩ := hgood
  unfold NotBreak
  simp only [decide_eq_true_eq]
  constructor
  · rintro rfl; simp only [List.mem_singleton] at h1; subst h1; rw [hnl] at h2; simp at h2
  · rintro rfl; simp only [List.mem_cons, List.not_mem_nil, or_false, or_self] at h1; subst h1; rw [hnl] at h2; simp at h2

theorem before_filter (L : LState α) (line : List α) :
    (before E o L line).filter (NotBreak E) = L.words.filter (NotBreak E) := by
  have h1 : NotBreak E [E.nl] = false := by simp [NotBreak]
  have h2 : NotBreak E [E.nl, E.nl] = false := by simp [NotBreak]
  have h3 : (opened E L).1.filter (NotBreak E) = L.words.filter (NotBreak E) := by
    unfold opened; split
    · dsimp only; split <;> simp [h2]
    · rfl
  unfold before
  cases kind E o line with
  | blank => rfl
  | text => dsimp only; rw [List.filter_append, h3]; split <;> simp [h2]
  | code => dsimp only; rw [List.filter_append, h3]; split <;> simp [h1, h2]

theorem stepLines_filter (hnl : E.isSpace E.nl = true) (htab : E.isSpace E.tab = true) (hsp : E.isSpace E.sp = true)
    (lines : List (List α)) : ∀ (L L' : LState α), stepLines E o L lines = .ok L' →
    L'.words.filter (NotBreak E) = L.words.filter (NotBreak E) ++ lines.flatMap (elements E o) := by
  induction lines with
  | nil => intro L L' h; simp only [stepLines, Except.ok.injEq] at h; subst h; simp
  | cons line lines ih =>
    intro L L' h
    have hel : (elements E o line).filter (NotBreak E) = elements E o line :=
      List.filter_eq_self.2 (elements_notBreak hnl htab hsp line)
    unfold stepLines at h
    cases h1 : lineStep E o L line with
    | error e => rw [h1] at h; simp at h
    | ok L1 =>
      rw [h1] at h
      rw [ih L1 L' h, List.flatMap_cons, ← List.append_assoc]
      congr 1
      unfold lineStep at h1
      cases hk : kind E o line with
      | blank =>
        rw [hk] at h1
        simp only [Except.ok.injEq] at h1
        have : elements E o line = [] := by unfold elements; rw [hk]
        rw [this, ← h1]
        split
        · simp
        · split <;> simp
      | text =>
        rw [hk] at h1
        simp only [Except.ok.injEq] at h1
        rw [← h1]; dsimp only
        rw [List.filter_append, before_filter, hel]
      | code =>
        rw [hk] at h1
        dsimp only at h1
        split at h1
        · simp at h1
        · simp only [Except.ok.injEq] at h1
          rw [← h1]; dsimp only
          rw [List.filter_append, before_filter, hel]

/-- C53: whatever is returned (and however often code and text alternate): apart from the breaks, its
elements are exactly the words of the text lines and the code lines, in order; if the last line is not
an unfinished line of code. -/
theorem C53_elements (hnl : E.isSpace E.nl = true) (htab : E.isSpace E.tab = true)
    (hsp : E.isSpace E.sp = true) (hne : E.tab ≠ E.sp)
    (ht : 0 < o.tabWidth) (s : List α) (hlast : ∀ l, (linesOf E.nl s).getLast? = some l → kind E o l ≠ .code)
    (out : List (List α)) (h : splitTextWithCode E o s = .ok out) :
    (out = [[]] ∧ (linesOf E.nl s).flatMap (elements E o) = []) ∨
    out.filter (NotBreak E) = (linesOf E.nl s).flatMap (elements E o) := by
  have hc : ∀ l ∈ linesOf E.nl s, Countable E o l := by
    by_cases hc : ∀ l ∈ linesOf E.nl s, Countable E o l
    · exact hc
    · obtain ⟨e, he⟩ := C53_raises hnl htab hne ht s hc
      rw [he] at h; simp at h
  obtain ⟨init, last, h1, h2⟩ := linesOf_spec E.nl s
  have hno := linesOf_no_nl E.nl s
  rw [h1] at hc hlast hno ⊢
  rw [h2, split_eq hnl htab ht hne init last (fun l hl => ⟨hno l hl, hc l hl⟩)] at h
  have key : ∀ w, byLines E o init last = .ok w → w.filter (NotBreak E) = (init ++ [last]).flatMap (elements E o) := by
    intro w hw
    unfold byLines at hw
    cases h3 : stepLines E o LState.init init with
    | error e => rw [h3] at hw; simp [Except.bind] at hw
    | ok L =>
      rw [h3] at hw
      have h4 := stepLines_filter hnl htab hsp init _ _ h3
      have hel : (elements E o last).filter (NotBreak E) = elements E o last :=
        List.filter_eq_self.2 (elements_notBreak hnl htab hsp last)
      rw [List.flatMap_append, List.flatMap_cons, List.flatMap_nil, List.append_nil]
      have h5 : (LState.init : LState α).words.filter (NotBreak E) = [] := rfl
      rw [h5, List.nil_append] at h4
      rw [← h4]
      dsimp only [Except.bind] at hw
      unfold finish at hw
      cases hk : kind E o last with
      | blank =>
        rw [hk] at hw
        simp only [Except.ok.injEq] at hw
        have : elements E o last = [] := by unfold elements; rw [hk]
        rw [this, ← hw]; simp
      | text =>
        rw [hk] at hw
        simp only [Except.ok.injEq] at hw
        rw [← hw, List.filter_append, before_filter, hel]
      | code => exact absurd hk (hlast last (by simp))
  cases h3 : byLines E o init last with
  | error e => rw [h3] at h; simp [Except.map] at h
  | ok w =>
    rw [h3] at h
    simp only [Except.map, Except.ok.injEq] at h
    have hk := key w h3
    by_cases hw : w = []
    · left
      rw [if_pos hw] at h
      refine ⟨h.symm, ?_⟩
      rw [← hk, hw]; rfl
    · right
      rw [if_neg hw] at h
      rw [← h]; exact hk

/-- C53: the characters of the result that are not whitespace are those of the string, in order (if the last
line is not an unfinished line of code). -/
theorem C53_loses_nothing (hnl : E.isSpace E.nl = true) (htab : E.isSpace E.tab = true)
    (hsp : E.isSpace E.sp = true) (hne : E.tab ≠ E.sp)
    (ht : 0 < o.tabWidth) (s : List α) (hlast : ∀ l, (linesOf E.nl s).getLast? = some l → kind E o l ≠ .code)
    (out : List (List α)) (h : splitTextWithCode E o s = .ok out) :
    out.flatten.filter (fun c => !E.isSpace c) = s.filter (fun c => !E.isSpace c) := by
  have hs : ((linesOf E.nl s).flatMap (elements E o)).flatten.filter (fun c => !E.isSpace c) =
      s.filter (fun c => !E.isSpace c) := by
    obtain ⟨init, last, h1, h2⟩ := linesOf_spec E.nl s
    rw [h1]
    conv => rhs; rw [h2]
    clear h1 h2 h hlast
    induction init with
    | nil => simp [filter_elements htab hsp]
    | cons l init ih =>
      simp only [List.cons_append, List.flatMap_cons, List.flatten_append, List.filter_append,
        List.append_assoc, filter_elements htab hsp] at ih ⊢
      rw [ih]
      simp [hnl]
  have hb : ∀ out : List (List α), out.flatten.filter (fun c => !E.isSpace c) =
      (out.filter (NotBreak E)).flatten.filter (fun c => !E.isSpace c) := by
    intro out
    induction out with
    | nil => rfl
    | cons w out ih =>
      rw [List.flatten_cons, List.filter_append, List.filter_cons, ih]
      by_cases hw : NotBreak E w = true
      · rw [if_pos hw]; simp
      · rw [if_neg hw]
        have : w = [E.nl] ∨ w = [E.nl, E.nl] := by
          unfold NotBreak at hw
          simp only [decide_eq_true_eq] at hw
          grind
        rcases this with rfl | rfl <;> simp [hnl]
  rcases C53_elements hnl htab hsp hne ht s hlast out h with ⟨h1, h2⟩ | h1
  · rw [h2] at hs
    rw [h1, ← hs]; rfl
  · rw [hb, h1, hs]

/-! ### examples -/

/-- For the examples: split_text_with_code of a string with the default arguments. -/
def splitStr (s : String) : Except Err (List String) :=
  (splitTextWithCode ascii ⟨8, true, 4, true⟩ s.toList).map (·.map String.ofList)

/-- A text with all kinds of breaks. -/
def sample : String := "hey there\nparty people\n\n\n  second. \n\tfor x in y:\n\n\t  print( x )\n\nthe end"

instance : DecidableEq (Except Err (List String)) := fun a b =>
  match a, b with
  | .ok a, .ok b => if h : a = b then isTrue (by rw [h]) else isFalse (by simpa using h)
  | .error a, .error b => if h : a = b then isTrue (by rw [h]) else isFalse (by simpa using h)
  | .ok _, .error _ => isFalse (by simp)
  | .error _, .ok _ => isFalse (by simp)

example : splitStr sample = .ok ["hey", "there", "party", "people", "\n\n", "second.", "\n\n",
    "        for x in y:", "\n", "\n", "          print( x )", "\n\n", "the", "end"] := by decide +kernel

/-- The hypotheses of C53_layout hold for it. -/
example : (∀ l ∈ linesOf '\n' sample.toList, Countable ascii ⟨8, true, 4, true⟩ l) ∧
    (linesOf '\n' sample.toList).map (kind ascii ⟨8, true, 4, true⟩) =
      [.text, .text, .blank, .blank, .text, .code, .blank, .code, .blank, .text] := by
  unfold Countable
  decide +kernel

/-- C53: a line of code at the end without a newline is lost. -/
theorem C53_counterexample_last_line : splitStr "text\n\n    x = 1\n    y = 2" = .ok ["text", "\n\n", "    x = 1", "\n"] := by
  decide +kernel

/-- C53: code, text and code again: the blank lines after the first code are inserted before the second. -/
theorem C53_counterexample_code_again :
    splitStr "    a = 1\n\ntext\n\n    b = 2\n" =
      .ok ["    a = 1", "\n\n", "text", "\n\n", "\n", "\n", "    b = 2"] := by decide +kernel

/-- C53: with no blank line between the text and the second code, an assertion fails. -/
theorem C53_counterexample_assertion :
    splitStr "    a = 1\n\ntext\n    b = 2\n" = .error .assertionError := by decide +kernel

end Big.Wrap
