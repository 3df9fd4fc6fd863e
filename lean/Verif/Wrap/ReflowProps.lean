import Verif.Wrap.Reflow
/-! # C134: wrapping is stable -/
namespace Big.Wrap

variable {α : Type} [DecidableEq α] {E : Env α} {o : Opt}

theorem lastKind_append (k : Kind) (a b : List (List α)) :
    lastKind E o k (a ++ b) = lastKind E o (lastKind E o k a) b := by
  induction a generalizing k with
  | nil => rfl
  | cons l a ih => simp only [List.cons_append, lastKind, ih]

theorem lastKind_filter (k : Kind) (lines : List (List α)) :
    lastKind E o k lines = ((lines.filter (fun l => kind E o l ≠ .blank)).getLast?.map (kind E o)).getD k := by
  induction lines generalizing k with
  | nil => rfl
  | cons l lines ih =>
    simp only [lastKind, ih, List.filter_cons]
    by_cases h : kind E o l = .blank
    · rw [if_pos h, if_neg (by simp [h])]
    · rw [if_neg h, if_pos (by simp [h])]
      cases List.filter (fun l => decide (kind E o l ≠ Kind.blank)) lines with
      | nil => rfl
      | cons x xs =>
        rw [List.getLast?_cons_cons, List.getLast?_cons]; rfl

theorem linesOf_snoc_nl (nl : α) (t : List α) : linesOf nl (t ++ [nl]) = linesOf nl t ++ [[]] := by
  induction t with
  | nil => simp [linesOf]
  | cons c t ih =>
    simp only [List.cons_append, linesOf, ih]
    split
    · rfl
    · cases h : linesOf nl t with
      | nil => exact absurd h (linesOf_ne_nil _ _)
      | cons l ls => rfl

theorem layout_snoc_nil (L : List (List α)) : ∀ (prev : Kind) (b : Nat),
    layout E o prev b (L ++ [[]]) = layout E o prev b L := by
  induction L with
  | nil => intro prev b; simp [layout, kind_nil]
  | cons l L ih =>
    intro prev b
    simp only [List.cons_append, layout, ih]

theorem good_snoc_nil (L : List (List α)) : ∀ (k : Kind) (b : Bool),
    Good E o k b L → Good E o k b (L ++ [[]]) := by
  induction L with
  | nil => intro k b _; simp only [List.nil_append, Good, kind_nil, countable_nil, true_and]
  | cons l L ih =>
    intro k b h
    obtain ⟨h1, h2⟩ := h
    refine ⟨h1, ?_⟩
    cases hk : kind E o l with
    | blank => simp only [hk] at h2; exact ih _ _ h2
    | text => simp only [hk] at h2; exact ih _ _ h2
    | code => simp only [hk] at h2; exact ⟨h2.1, ih _ _ h2.2⟩

/-- The lines of the wrapped text. -/
theorem reflow_start (hnl : E.isSpace E.nl = true) (hsp : E.isSpace E.sp = true) (hnn : E.sp ≠ E.nl) (two : Bool)
    (margin : Int) {e : Kind} {W : List (List α)} (hF : Form E o e .blank false W) (hW : W ≠ []) :
    layout E o .blank 0 (linesOf E.nl (wrapLoop E two margin 0 [] W).flatten) = W ∧
    Good E o .blank false (linesOf E.nl (wrapLoop E two margin 0 [] W).flatten) ∧
    lastKind E o .blank (linesOf E.nl (wrapLoop E two margin 0 [] W).flatten) = e := by
  cases hF with
  | done => exact absurd rfl hW
  | @first _ w W hw hF =>
    have hwl := hw.line hnl
    rw [wrapLoop_fresh _ _ _ _ _ hwl.notSpace]
    have h := (reflow_lines hnl hsp hnn two margin hF).1 rfl w w hwl
    refine ⟨?_, h.good _ _ (by simp) (by simp), h.kinds _⟩
    rw [h.lay, splitWords_word _ _ hw.2.1 hw.1]; rfl
  | @firstCode c W hc hF =>
    rw [wrapLoop_fresh _ _ _ _ _ hc.notSpace]
    have h := (reflow_lines hnl hsp hnn two margin hF).2 rfl c c hc
    refine ⟨?_, h.good _ _ (by simp) (by simp), h.kinds _⟩
    rw [h.lay]; rfl

/-- The words of `s`, and the words of the text wrapped from them: with a newline at the end, or without one
if the last line that is not blank is not code. -/
theorem reflow_main (hnl : E.isSpace E.nl = true) (htab : E.isSpace E.tab = true) (hsp : E.isSpace E.sp = true)
    (hne : E.tab ≠ E.sp) (hnn : E.sp ≠ E.nl) (ht : 0 < o.tabWidth) (s : List α)
    (hc : ∀ l ∈ linesOf E.nl s, Countable E o l) (honce : CodeAtMostOnce E o (linesOf E.nl s))
    (hlast : ∀ l, (linesOf E.nl s).getLast? = some l → kind E o l ≠ .code) :
    ∃ words, splitTextWithCode E o s = .ok words ∧ ∀ (margin : Int) (two : Bool),
      ∃ t, wrapWords E words margin two = .ok t ∧ splitTextWithCode E o (t ++ [E.nl]) = .ok words ∧
        ((∀ l, ((linesOf E.nl s).filter (fun l => kind E o l ≠ .blank)).getLast? = some l → kind E o l ≠ .code) →
          splitTextWithCode E o t = .ok words) := by
  rw [C53_layout hnl htab hne ht s hc honce hlast]
  refine ⟨_, rfl, ?_⟩
  intro margin two
  have hg : Good E o .blank false (linesOf E.nl s) :=
    good_of _ _ _ hc honce (by simp) (by simp) (by simp)
  have hF := layout_form hnl htab hsp hne hnn (linesOf E.nl s) .blank 0 false hg (linesOf_no_nl E.nl s) (by simp)
  dsimp only
  by_cases h0 : layout E o .blank 0 (linesOf E.nl s) = []
  · rw [if_pos h0]
    refine ⟨[], by simp [wrapWords, wrapLoop, isSpaceWord], ?_, fun _ => rfl⟩
    have : linesOf E.nl ([] ++ [E.nl]) = [[], []] := by simp [linesOf]
    rw [C53_layout hnl htab hne ht, this]
    · simp [layout, kind_nil]
    · rw [this]; intro l hl; simp at hl; subst hl; exact countable_nil
    · rw [this]; rintro ⟨x, y, z, h, _⟩
      have := h.length_le; simp at this
    · rw [this]; intro l hl; simp at hl; subst hl; rw [kind_nil]; simp
  · rw [if_neg h0]
    obtain ⟨r1, r2, r3⟩ := reflow_start hnl hsp hnn true margin hF h0
    generalize layout E o .blank 0 (linesOf E.nl s) = W at *
    refine ⟨(wrapLoop E true margin 0 [] W).flatten, ?_, ?_, ?_⟩
    · cases W with
      | nil => exact absurd rfl h0
      | cons w W => rfl
    · obtain ⟨g1, _, _, g2⟩ := of_good _ _ _ (good_snoc_nil _ _ _ r2)
      rw [← linesOf_snoc_nl] at g1 g2
      rw [C53_layout hnl htab hne ht _ g1 g2, linesOf_snoc_nl, layout_snoc_nil, r1]
      · dsimp only; rw [if_neg h0]
      · rw [linesOf_snoc_nl]; intro l hl; simp at hl; subst hl; rw [kind_nil]; simp
    · intro hl
      obtain ⟨g1, _, _, g2⟩ := of_good _ _ _ r2
      rw [C53_layout hnl htab hne ht _ g1 g2, r1]
      · dsimp only; rw [if_neg h0]
      · intro l hl2 hk
        rcases List.eq_nil_or_concat (linesOf E.nl (wrapLoop E true margin 0 [] W).flatten) with h | ⟨init, x, h⟩
        · exact linesOf_ne_nil _ _ h
        · rw [h] at hl2 r3
          simp only [List.concat_eq_append, List.getLast?_append, List.getLast?_singleton, Option.some_or,
            Option.some.injEq] at hl2
          subst hl2
          rw [List.concat_eq_append, lastKind_append] at r3
          simp only [lastKind, hk, reduceCtorEq, if_false] at r3
          rw [lastKind_filter] at r3
          cases hq : (List.filter (fun l => decide (kind E o l ≠ Kind.blank)) (linesOf E.nl s)).getLast? with
          | none => rw [hq] at r3; simp at r3
          | some y =>
            rw [hq] at r3
            simp only [Option.map_some, Option.getD_some] at r3
            exact hl y hq r3.symm

/-- C134: for a text (with code in at most one block and with no unfinished line of code at the end): what
wrap_words makes of its words, with any margin, has exactly the same words, paragraphs, and lines of code;
a newline has to be added, so that the last line of code is not lost. -/
theorem C134_words_of_wrapped (hnl : E.isSpace E.nl = true) (htab : E.isSpace E.tab = true) (hsp : E.isSpace E.sp = true)
    (hne : E.tab ≠ E.sp) (hnn : E.sp ≠ E.nl) (ht : 0 < o.tabWidth) (s : List α)
    (hc : ∀ l ∈ linesOf E.nl s, Countable E o l) (honce : CodeAtMostOnce E o (linesOf E.nl s))
    (hlast : ∀ l, (linesOf E.nl s).getLast? = some l → kind E o l ≠ .code) :
    ∃ words, splitTextWithCode E o s = .ok words ∧ ∀ (margin : Int) (two : Bool),
      ∃ t, wrapWords E words margin two = .ok t ∧ splitTextWithCode E o (t ++ [E.nl]) = .ok words := by
  obtain ⟨words, h1, h2⟩ := reflow_main hnl htab hsp hne hnn ht s hc honce hlast
  refine ⟨words, h1, fun margin two => ?_⟩
  obtain ⟨t, h3, h4, _⟩ := h2 margin two
  exact ⟨t, h3, h4⟩

/-- C134: if the last line that is not blank is not code, no newline has to be added. -/
theorem C134_words_of_wrapped_text (hnl : E.isSpace E.nl = true) (htab : E.isSpace E.tab = true)
    (hsp : E.isSpace E.sp = true) (hne : E.tab ≠ E.sp) (hnn : E.sp ≠ E.nl) (ht : 0 < o.tabWidth) (s : List α)
    (hc : ∀ l ∈ linesOf E.nl s, Countable E o l) (honce : CodeAtMostOnce E o (linesOf E.nl s))
    (hlast : ∀ l, ((linesOf E.nl s).filter (fun l => kind E o l ≠ .blank)).getLast? = some l → kind E o l ≠ .code) :
    ∃ words, splitTextWithCode E o s = .ok words ∧ ∀ (margin : Int) (two : Bool),
      ∃ t, wrapWords E words margin two = .ok t ∧ splitTextWithCode E o t = .ok words := by
  obtain ⟨words, h1, h2⟩ := reflow_main hnl htab hsp hne hnn ht s hc honce (by
    intro l hl hk
    rcases List.eq_nil_or_concat (linesOf E.nl s) with h | ⟨init, x, h⟩
    · exact linesOf_ne_nil _ _ h
    · rw [h] at hl hlast
      simp only [List.concat_eq_append, List.getLast?_append, List.getLast?_singleton, Option.some_or,
        Option.some.injEq] at hl
      subst hl
      exact hlast x (by simp [List.concat_eq_append, List.filter_append, hk]) hk)
  refine ⟨words, h1, fun margin two => ?_⟩
  obtain ⟨t, h3, _, h4⟩ := h2 margin two
  exact ⟨t, h3, h4 hlast⟩

/-- C134: with allow_code=False this is so for every string whatsoever. -/
theorem C134_no_code (hnl : E.isSpace E.nl = true) (htab : E.isSpace E.tab = true)
    (hsp : E.isSpace E.sp = true) (hne : E.tab ≠ E.sp) (hnn : E.sp ≠ E.nl) (ht : 0 < o.tabWidth)
    (ha : o.allowCode = false) (s : List α) :
    ∃ words, splitTextWithCode E o s = .ok words ∧ ∀ (margin : Int) (two : Bool),
      ∃ t, wrapWords E words margin two = .ok t ∧ splitTextWithCode E o t = .ok words := by
  have hk : ∀ l, kind E o l ≠ .code := by
    intro l; unfold kind; simp only [ha, Bool.false_eq_true, false_and, if_false]; split <;> simp
  exact C134_words_of_wrapped_text hnl htab hsp hne hnn ht s (fun l _ h => by rw [ha] at h; simp at h)
    (fun ⟨a, _, _, _, h, _⟩ => hk a h) (fun l _ => hk l)

/-- wrap_words(split_text_with_code(s, ...), margin, two_spaces=...) -/
def reflow (E : Env α) (o : Opt) (margin : Int) (two : Bool) (s : List α) : Except Err (List α) :=
  (splitTextWithCode E o s).bind (fun words => wrapWords E words margin two)

/-- C134: wrapping again is the same as wrapping the text it was made from, whatever the margins; with the same
margin, nothing changes. -/
theorem C134_again (hnl : E.isSpace E.nl = true) (htab : E.isSpace E.tab = true)
    (hsp : E.isSpace E.sp = true) (hne : E.tab ≠ E.sp) (hnn : E.sp ≠ E.nl) (ht : 0 < o.tabWidth) (s : List α)
    (hc : ∀ l ∈ linesOf E.nl s, Countable E o l) (honce : CodeAtMostOnce E o (linesOf E.nl s))
    (hlast : ∀ l, ((linesOf E.nl s).filter (fun l => kind E o l ≠ .blank)).getLast? = some l → kind E o l ≠ .code)
    (m m' : Int) (two two' : Bool) :
    ∃ t, reflow E o m two s = .ok t ∧ reflow E o m' two' t = reflow E o m' two' s := by
  obtain ⟨words, h1, h2⟩ := C134_words_of_wrapped_text hnl htab hsp hne hnn ht s hc honce hlast
  obtain ⟨t, h3, h4⟩ := h2 m two
  refine ⟨t, ?_, ?_⟩
  · unfold reflow; rw [h1]; exact h3
  · unfold reflow; rw [h1, h4]

/-! ### examples -/

/-- For the examples: wrap_words(split_text_with_code(s), margin). -/
def reflowStr (margin : Int) (s : String) : Except Err (List String) :=
  (reflow ascii ⟨8, true, 4, true⟩ margin true s.toList).map (fun t => [String.ofList t])

example : reflowStr 12 sample =
    .ok ["hey there\nparty people\n\nsecond.\n\n        for x in y:\n\n          print( x )\n\nthe end"] := by decide +kernel
example : reflowStr 8 "hey there\nparty people\n\nsecond.\n\n        for x in y:\n\n          print( x )\n\nthe end" =
    reflowStr 8 sample := by decide +kernel
/-- The hypotheses of C134_again hold for `sample` (see also C53_layout). -/
example : ((linesOf '\n' sample.toList).filter (fun l => kind ascii ⟨8, true, 4, true⟩ l ≠ .blank)).getLast? = some "the end".toList ∧
    kind ascii ⟨8, true, 4, true⟩ "the end".toList ≠ .code := by decide +kernel
example : CodeAtMostOnce ascii ⟨8, true, 4, true⟩ (linesOf '\n' sample.toList) := by
  rintro ⟨a, b, c, h, h1, h2, h3⟩
  have := h.map (kind ascii ⟨8, true, 4, true⟩)
  simp only [List.map_cons, List.map_nil, h1, h2, h3] at this
  exact absurd this (by decide +kernel)

/-- C134: a text that ends in code: wrap_words gives no newline at the end, and its last line of code is lost
when it is split again. -/
theorem C134_counterexample_ends_in_code :
    reflowStr 79 "text\n\n    x = 1\n" = .ok ["text\n\n    x = 1"] ∧
    reflowStr 79 "text\n\n    x = 1" = .ok ["text\n\n"] := by decide +kernel

/-- C134: with code again after text, the newlines that are inserted are not the same the second time. -/
theorem C134_counterexample_code_again :
    reflowStr 79 "    a = 1\n\n\n\ntext\n\n    b = 2\n\nend" = .ok ["    a = 1\n\ntext\n\n\n\n\n\n    b = 2\n\nend"] ∧
    reflowStr 79 "    a = 1\n\ntext\n\n\n\n\n\n    b = 2\n\nend" = .ok ["    a = 1\n\ntext\n\n\n\n    b = 2\n\nend"] := by
  decide +kernel

end Big.Wrap
