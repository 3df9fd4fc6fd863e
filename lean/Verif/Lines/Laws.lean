import Verif.Lines.Filters
/-! # C137: lines modifiers applied again, or in another order -/
namespace Big.Lines

variable {α μ : Type} [DecidableEq α] {E : Env α}

/-! ### two generators in a row -/

/-- What two generators in a row do with a pair. -/
def andThen (g f : Pair α μ → Except Err (Option (Pair α μ))) (p : Pair α μ) : Except Err (Option (Pair α μ)) :=
  match g p with
  | .error e => .error e
  | .ok none => .ok none
  | .ok (some q) => f q

omit [DecidableEq α] in
theorem each_each (g f : Pair α μ → Except Err (Option (Pair α μ))) (e : Option Err) : ∀ li : List (Pair α μ),
    each f (each g li e).1 (each g li e).2 = each (andThen g f) li e := by
  intro li
  induction li with
  | nil => rfl
  | cons p li ih =>
    cases hg : g p with
    | error e' =>
      have ha : andThen g f p = .error e' := by unfold andThen; rw [hg]
      simp only [each, hg, ha]
    | ok q =>
      cases q with
      | none =>
        have ha : andThen g f p = .ok none := by unfold andThen; rw [hg]
        simp only [each, hg, ha]; exact ih
      | some q =>
        have ha : andThen g f p = f q := by unfold andThen; rw [hg]
        cases hf : f q with
        | error e' => simp only [each, hg, ha, hf]
        | ok r =>
          cases r with
          | none => simp only [each, hg, ha, hf]; exact ih
          | some r => simp only [each, hg, ha, hf, ih]

omit [DecidableEq α] in
theorem each_congr {f g : Pair α μ → Except Err (Option (Pair α μ))} (h : ∀ p, f p = g p) (li : List (Pair α μ))
    (e : Option Err) : each f li e = each g li e := by
  have : f = g := funext h
  rw [this]

/-! ### stripping -/

omit [DecidableEq α] in
theorem dropWhile_of_head {p : α → Bool} {l : List α} (h : ∀ c, l.head? = some c → p c = false) : l.dropWhile p = l := by
  cases l with
  | nil => rfl
  | cons c l => rw [List.dropWhile_cons, if_neg (by simp [h c rfl])]

omit [DecidableEq α] in
theorem rstrip_of_last {l : List α} (h : ∀ c, l.getLast? = some c → E.isSpace c = false) : rstrip E l = l := by
  unfold rstrip
  rw [dropWhile_of_head, List.reverse_reverse]
  intro c hc
  rw [List.head?_reverse] at hc
  exact h c hc

/-- A line that has been stripped already is left alone, and its LineInfo too. -/
theorem stripOne_stripped {q : Pair α μ} (h1 : ∀ c, q.2.head? = some c → E.isSpace c = false)
    (h2 : ∀ c, q.2.getLast? = some c → E.isSpace c = false) : stripOne E q = .ok (some q) := by
  unfold stripOne
  by_cases h : q.2.isEmpty = true
  · rw [if_pos h]
  · rw [if_neg h]
    have hl : lstrip E q.2 = q.2 := dropWhile_of_head h1
    have hr : rstrip E q.2 = q.2 := rstrip_of_last h2
    dsimp only
    rw [hl, if_neg h, hr]
    simp [clipBoth, Except.map]

omit [DecidableEq α] in
theorem sliceTo_append (a b : List α) : sliceTo (a ++ b) (a.length : Int) = a := by
  unfold sliceTo; simp

omit [DecidableEq α] in
theorem sliceFrom_append (a b : List α) : sliceFrom (a ++ b) (a.length : Int) = b := by
  unfold sliceFrom; simp

omit [DecidableEq α] in
theorem sliceTo_neg (a b : List α) (hb : b ≠ []) : sliceTo (a ++ b) (-(b.length : Int)) = a := by
  have := List.length_pos_iff.2 hb
  unfold sliceTo
  rw [if_neg (by omega), Int.neg_neg, Int.toNat_natCast, List.length_append, Nat.add_sub_cancel, List.take_left']
  rfl

theorem clipAll_line {info : Info α μ} {q : Pair α μ} (h : clipAll info = .ok q) : q.2 = [] := by
  unfold clipAll at h
  split at h
  · simp at h
  · simp only [Except.ok.injEq] at h; rw [← h]

/-- What `stripOne` does with a line that is not blank. -/
theorem stripOne_text {p : Pair α μ} {a t b : List α} (hs : Stripped E.isSpace p.2 a t b) (ht : t ≠ []) :
    stripOne E p = .ok (some
      ({ p.1 with leading := p.1.leading ++ a, columnNumber := p.1.columnNumber + (detab E a).length,
                  trailing := b ++ p.1.trailing }, t)) := by
  obtain ⟨h1, h2, h3, h4, h5⟩ := hs
  have hne : p.2.isEmpty = false := by
    rw [h1]; cases t with
    | nil => exact absurd rfl ht
    | cons c t => simp
  have htb : ∀ c, (t ++ b).head? = some c → E.isSpace c = false := by
    intro c hc
    cases t with
    | nil => exact absurd rfl ht
    | cons x t => exact h4 c hc
  have hl : lstrip E p.2 = t ++ b := by
    unfold lstrip
    rw [h1, List.append_assoc, List.dropWhile_append_of_pos h2, dropWhile_of_head htb]
  have hr : rstrip E (t ++ b) = t := by
    unfold rstrip
    rw [List.reverse_append, List.dropWhile_append_of_pos (by simpa using h3)]
    exact rstrip_of_last (E := E) h5
  have hlead : p.2.take (p.2.length - (t ++ b).length) = a := by
    rw [h1]; simp [Nat.add_sub_cancel, Nat.add_assoc]
  unfold stripOne
  rw [if_neg (by simp [hne])]
  dsimp only
  rw [hl, if_neg (by cases t with | nil => exact absurd rfl ht | cons x t => simp), hr, hlead, List.drop_left']
  · have c1 : (if a.isEmpty then .ok p else clipLeading E p.1 p.2 a.length (some a)) =
        (.ok ({ p.1 with leading := p.1.leading ++ a, columnNumber := p.1.columnNumber + (detab E a).length }, t ++ b) :
          Except Err (Pair α μ)) := by
      cases ha : a with
      | nil =>
        subst ha
        have h1' : p.2 = t ++ b := by simpa using h1
        simp only [List.isEmpty_nil, if_true]
        rw [← h1']
        simp [detab, expandLoop]
      | cons x a' =>
        rw [← ha]
        rw [if_neg (by simp [ha])]
        unfold clipLeading
        dsimp only
        rw [h1, List.append_assoc, sliceFrom_append, if_neg (by cases t with | nil => exact absurd rfl ht | cons x t => simp)]
        rfl
    unfold clipBoth
    rw [c1]
    dsimp only
    cases hb : b with
    | nil => simp [Except.map]
    | cons x b' =>
      rw [← hb]
      have hb0 : b ≠ [] := by simp [hb]
      rw [if_neg (by simp [hb])]
      unfold clipTrailing
      dsimp only
      rw [sliceTo_neg _ _ hb0, if_neg (by simpa using ht)]
      rfl
  · rfl

/-- What `stripOne` does with a line of whitespace. -/
theorem stripOne_blank {p : Pair α μ} (h0 : p.2 ≠ []) (h : ∀ c ∈ p.2, E.isSpace c = true) :
    stripOne E p = (clipAll p.1).map some := by
  have hl : lstrip E p.2 = [] := by
    unfold lstrip
    have := List.dropWhile_append_of_pos (p := E.isSpace) (l₁ := p.2) (l₂ := []) h
    simpa using this
  unfold stripOne
  rw [if_neg (by simpa using h0)]
  dsimp only
  rw [hl, if_pos (by rfl)]
  unfold clipBoth
  simp only [List.isEmpty_nil, if_true]
  rw [if_neg (by simpa using h0)]
  unfold clipTrailing
  dsimp only
  have := sliceTo_neg [] p.2 h0
  rw [List.nil_append] at this
  rw [this]
  rfl

/-- A line is empty, blank, or not blank. -/
theorem line_cases (p : Pair α μ) : p.2 = [] ∨ (p.2 ≠ [] ∧ ∀ c ∈ p.2, E.isSpace c = true) ∨
    ∃ a t b, Stripped E.isSpace p.2 a t b ∧ t ≠ [] := by
  obtain ⟨a, b, h⟩ := strip_stripped (E := E) p.2
  by_cases ht : rstrip E (lstrip E p.2) = []
  · by_cases h0 : p.2 = []
    · exact .inl h0
    · refine .inr (.inl ⟨h0, ?_⟩)
      rw [ht] at h
      obtain ⟨h1, h2, h3, _⟩ := h
      rw [h1]
      intro c hc
      simp only [List.append_nil, List.mem_append] at hc
      rcases hc with hc | hc
      · exact h2 c hc
      · exact h3 c hc
  · exact .inr (.inr ⟨a, _, b, h, ht⟩)

/-- After stripping there is nothing to strip. -/
theorem stripOne_result {p q : Pair α μ} (h : stripOne E p = .ok (some q)) :
    (∀ c, q.2.head? = some c → E.isSpace c = false) ∧ ∀ c, q.2.getLast? = some c → E.isSpace c = false := by
  rcases line_cases (E := E) p with h0 | ⟨h0, hb⟩ | ⟨a, t, b, hs, ht⟩
  · unfold stripOne at h
    rw [if_pos (by simp [h0])] at h
    simp only [Except.ok.injEq, Option.some.injEq] at h
    subst h; simp [h0]
  · rw [stripOne_blank h0 hb] at h
    cases hc : clipAll p.1 with
    | error e => rw [hc] at h; simp [Except.map] at h
    | ok r =>
      rw [hc] at h
      simp only [Except.map, Except.ok.injEq, Option.some.injEq] at h
      subst h
      rw [clipAll_line hc]; simp
  · rw [stripOne_text hs ht] at h
    simp only [Except.ok.injEq, Option.some.injEq] at h
    subst h
    exact ⟨hs.2.2.2.1, hs.2.2.2.2⟩

theorem rstripOne_stripped {q : Pair α μ} (h2 : ∀ c, q.2.getLast? = some c → E.isSpace c = false) :
    rstripOne E q = .ok (some q) := by
  unfold rstripOne
  dsimp only
  rw [rstrip_of_last h2, if_neg (by simp)]

/-- What `rstripOne` does. -/
theorem rstripOne_text {p : Pair α μ} {t b : List α} (hs : RStripped E.isSpace p.2 t b) (ht : t ≠ []) :
    rstripOne E p = .ok (some ({ p.1 with trailing := b ++ p.1.trailing }, t)) := by
  obtain ⟨h1, h2, h3⟩ := hs
  have hr : rstrip E p.2 = t := by
    rw [h1]
    unfold rstrip
    rw [List.reverse_append, List.dropWhile_append_of_pos (by simpa using h2)]
    exact rstrip_of_last (E := E) h3
  unfold rstripOne
  dsimp only
  rw [hr]
  by_cases h : t = p.2
  · rw [if_neg (by simpa using h)]
    have hb : b = [] := by rw [h1] at h; simpa using h
    subst hb
    rw [h]; rfl
  · rw [if_pos h]
    unfold clipTrailing
    dsimp only
    rw [Int.neg_neg, h1, sliceTo_append, sliceFrom_append, if_neg (by simpa using ht)]
    rfl

theorem rstripOne_blank {p : Pair α μ} (h0 : p.2 ≠ []) (h : ∀ c ∈ p.2, E.isSpace c = true) :
    rstripOne E p = (clipAll p.1).map some := by
  have hr : rstrip E p.2 = [] := by
    unfold rstrip
    have := List.dropWhile_append_of_pos (p := E.isSpace) (l₁ := p.2.reverse) (l₂ := []) (by simpa using h)
    simp only [List.append_nil, List.dropWhile_nil] at this
    rw [this]; rfl
  unfold rstripOne
  dsimp only
  rw [hr, if_pos (fun h => h0 h.symm)]
  unfold clipTrailing
  simp [sliceTo]

theorem rstripOne_result {p q : Pair α μ} (h : rstripOne E p = .ok (some q)) :
    ∀ c, q.2.getLast? = some c → E.isSpace c = false := by
  obtain ⟨b, hs⟩ := rstrip_stripped (E := E) p.2
  by_cases ht : rstrip E p.2 = []
  · rw [ht] at hs
    by_cases h0 : p.2 = []
    · unfold rstripOne at h
      dsimp only at h
      rw [ht, if_neg (by simp [h0])] at h
      simp only [Except.ok.injEq, Option.some.injEq] at h
      subst h; simp [h0]
    · rw [rstripOne_blank h0 (by intro c hc; rw [hs.1] at hc; exact hs.2.1 c (by simpa using hc))] at h
      cases hc : clipAll p.1 with
      | error e => rw [hc] at h; simp [Except.map] at h
      | ok r =>
        rw [hc] at h
        simp only [Except.map, Except.ok.injEq, Option.some.injEq] at h
        subst h
        rw [clipAll_line hc]; simp
  · rw [rstripOne_text hs ht] at h
    simp only [Except.ok.injEq, Option.some.injEq] at h
    subst h
    exact hs.2.2

theorem andThen_fix {g f : Pair α μ → Except Err (Option (Pair α μ))}
    (h : ∀ p q, g p = .ok (some q) → f q = .ok (some q)) (p : Pair α μ) : andThen g f p = g p := by
  unfold andThen
  cases hg : g p with
  | error e => rfl
  | ok q =>
    cases q with
    | none => rfl
    | some q => exact h p q hg

/-- C137: lines_strip after lines_strip changes nothing, neither the lines nor what is in their LineInfo; the
same for lines_rstrip. -/
theorem C137_strip_twice (li : Stream α μ) :
    Modifier.apply E (Modifier.apply E li (.strip none)) (.strip none) = Modifier.apply E li (.strip none) ∧
    Modifier.apply E (Modifier.apply E li (.rstrip none)) (.rstrip none) = Modifier.apply E li (.rstrip none) := by
  simp only [Modifier.apply]
  rw [each_each, each_each]
  refine ⟨each_congr (andThen_fix fun p q h => ?_) _ _, each_congr (andThen_fix fun p q h => ?_) _ _⟩
  · exact stripOne_stripped (stripOne_result h).1 (stripOne_result h).2
  · exact rstripOne_stripped (rstripOne_result h)

/-- C137: lines_strip and lines_rstrip, in either order, are lines_strip, LineInfo and all. -/
theorem C137_strip_and_rstrip (li : Stream α μ) :
    Modifier.apply E (Modifier.apply E li (.rstrip none)) (.strip none) = Modifier.apply E li (.strip none) ∧
    Modifier.apply E (Modifier.apply E li (.strip none)) (.rstrip none) = Modifier.apply E li (.strip none) := by
  simp only [Modifier.apply]
  rw [each_each, each_each]
  refine ⟨each_congr (fun p => ?_) _ _, each_congr (andThen_fix fun p q h => ?_) _ _⟩
  · rcases line_cases (E := E) p with h0 | ⟨h0, hb⟩ | ⟨a, t, b, hs, ht⟩
    · unfold andThen
      rw [rstripOne_stripped (by simp [h0])]
    · unfold andThen
      rw [rstripOne_blank h0 hb, stripOne_blank h0 hb]
      cases hc : clipAll p.1 with
      | error e => rfl
      | ok r =>
        simp only [Except.map]
        exact stripOne_stripped (by rw [clipAll_line hc]; simp) (by rw [clipAll_line hc]; simp)
    · obtain ⟨h1, h2, h3, h4, h5⟩ := hs
      have hlast : ∀ c, (a ++ t).getLast? = some c → E.isSpace c = false := by
        intro c hc
        rw [List.getLast?_append] at hc
        cases hl : t.getLast? with
        | none => exact absurd (List.getLast?_eq_none_iff.1 hl) ht
        | some x =>
          rw [hl] at hc
          simp only [Option.some_or, Option.some.injEq] at hc
          subst hc; exact h5 x hl
      unfold andThen
      rw [rstripOne_text (t := a ++ t) (b := b) ⟨h1, h3, hlast⟩ (by simp [ht]), stripOne_text ⟨h1, h2, h3, h4, h5⟩ ht]
      dsimp only
      rw [stripOne_text (p := ({ p.1 with trailing := b ++ p.1.trailing }, a ++ t)) (a := a) (t := t) (b := [])
        ⟨by simp, h2, by simp, h4, h5⟩ ht]
      rfl
  · exact rstripOne_stripped (stripOne_result h).2

theorem mem_expandLoop {E : Env α} (hne : E.space ≠ E.tab) : ∀ (s : List α) (j : Nat), E.tab ∉ expandLoop E j s := by
  intro s
  induction s with
  | nil => intro j; simp [expandLoop]
  | cons c s ih =>
    intro j
    unfold expandLoop
    by_cases hc : c = E.tab
    · rw [if_pos hc]
      split
      · intro h
        rcases List.mem_append.1 h with h | h
        · exact hne (List.eq_of_mem_replicate h).symm
        · exact ih _ h
      · exact ih _
    · rw [if_neg hc]
      intro h
      rcases List.mem_cons.1 h with h | h
      · exact hc h.symm
      · exact ih _ h

/-- C137: lines_convert_tabs_to_spaces twice is the same as once. -/
theorem C137_convert_tabs_twice (hne : E.space ≠ E.tab) (li : Stream α μ) :
    Modifier.apply E (Modifier.apply E li .convertTabsToSpaces) .convertTabsToSpaces =
      Modifier.apply E li .convertTabsToSpaces := by
  simp only [Modifier.apply]
  rw [each_each]
  refine each_congr (andThen_fix fun p q h => ?_) _ _
  unfold tabsOne at h ⊢
  simp only [Except.ok.injEq, Option.some.injEq] at h
  subst h
  dsimp only
  rw [show detab E (detab E p.2) = detab E p.2 from detab_noTab (mem_expandLoop hne p.2 0)]

/-! ### filters -/

/-- The modifiers that yield some of the pairs, unchanged. -/
def IsFilter : Modifier α μ → Prop
  | .containing _ _ => True
  | .filterLineCommentLines _ => True
  | .filterEmptyLines => True
  | _ => False

/-- The modifiers that yield some of the pairs. -/
def Selects : Modifier α μ → Prop
  | .grep _ _ _ => True
  | m => IsFilter m

theorem filter_form {m : Modifier α μ} (h : IsFilter m) :
    (∃ f : List α → Bool, ∀ li, Modifier.apply E li m = (li.1.filter (fun p => f p.2), li.2)) ∨
    ∀ li, Modifier.apply E li m = ([], some .valueError) := by
  cases m with
  | containing s invert => exact .inl ⟨fun line => contains s line != invert, fun li => by simp only [Modifier.apply]; rw [each_filter]⟩
  | filterEmptyLines => exact .inl ⟨fun line => !line.isEmpty, fun li => by simp only [Modifier.apply]; rw [each_filter]⟩
  | filterLineCommentLines markers =>
    by_cases hm : markers.isEmpty = true
    · exact .inr fun li => by simp only [Modifier.apply]; rw [if_pos hm]
    · exact .inl ⟨fun line => !isCommentLine E markers line, fun li => by simp only [Modifier.apply]; rw [if_neg hm, each_filter]⟩
  | rstrip _ => cases h
  | strip _ => cases h
  | grep _ _ _ => cases h
  | sort _ _ => cases h
  | stripLineComments _ => cases h
  | convertTabsToSpaces => cases h
  | stripIndent => cases h

theorem filter_nil {m : Modifier α μ} (h : Selects m) :
    Modifier.apply E ([], some .valueError) m = ([], some .valueError) := by
  cases m with
  | containing s invert => rfl
  | filterEmptyLines => rfl
  | filterLineCommentLines markers =>
    simp only [Modifier.apply]; split <;> rfl
  | grep _ _ _ => rfl
  | rstrip _ => cases h
  | strip _ => cases h
  | sort _ _ => cases h
  | stripLineComments _ => cases h
  | convertTabsToSpaces => cases h
  | stripIndent => cases h

/-- C137: filters may be applied in any order (and lines_grep among them), and applying one twice is the same as
once. -/
theorem C137_filters_commute (m m' : Modifier α μ) (h : IsFilter m) (h' : Selects m') (li : Stream α μ) :
    Modifier.apply E (Modifier.apply E li m) m' = Modifier.apply E (Modifier.apply E li m') m ∧
    Modifier.apply E (Modifier.apply E li m) m = Modifier.apply E li m := by
  rcases filter_form (E := E) h with ⟨f, hf⟩ | hf
  · refine ⟨?_, ?_⟩
    · by_cases hm : IsFilter m'
      · rcases filter_form (E := E) hm with ⟨g, hg⟩ | hg
        · simp only [hf, hg, List.filter_filter]
          congr 2
          funext p; rw [Bool.and_comm]
        · simp only [hf, hg, List.filter_nil]
      · cases m' with
        | grep search name invert =>
          have hg : ∀ li : Stream α μ, Modifier.apply E li (.grep search name invert) = each (grepOne search name invert) li.1 li.2 :=
            fun _ => rfl
          rw [hf, hf, hg, hg, each_grep, each_grep]
          dsimp only
          rw [List.filter_map, List.filter_filter, List.filter_filter]
          congr 3
          funext p; simp only [Function.comp]; rw [Bool.and_comm]
        | containing _ _ => exact absurd trivial hm
        | filterEmptyLines => exact absurd trivial hm
        | filterLineCommentLines _ => exact absurd trivial hm
        | rstrip _ => cases h'
        | strip _ => cases h'
        | sort _ _ => cases h'
        | stripLineComments _ => cases h'
        | convertTabsToSpaces => cases h'
        | stripIndent => cases h'
    · simp only [hf, List.filter_filter, Bool.and_self]
  · refine ⟨?_, ?_⟩
    · rw [hf, hf, filter_nil h']
    · rw [hf, hf]

/-! ### lines_sort -/

/-- Sorted lists in which equals come in the same order are equal. -/
theorem sorted_unique {β : Type} (lt : β → β → Bool)
    (hweak : ∀ a b c, lt a c = true → lt a b = true ∨ lt b c = true) (hirr : ∀ a, lt a a = false) :
    ∀ l l' : List β, l.Pairwise (fun a b => lt b a = false) → l'.Pairwise (fun a b => lt b a = false) → l.Perm l' →
      (∀ x, l.filter (fun y => !lt x y && !lt y x) = l'.filter (fun y => !lt x y && !lt y x)) → l = l' := by
  intro l
  induction l with
  | nil => intro l' _ _ hp _; exact (List.nil_perm.1 hp).symm
  | cons a l ih =>
    intro l' hs hs' hp hf
    cases l' with
    | nil => exact absurd hp.length_eq (by simp)
    | cons b l' =>
      rw [List.pairwise_cons] at hs hs'
      have hba : lt b a = false := by
        rcases List.mem_cons.1 (hp.mem_iff.2 (List.mem_cons_self (a := b) (l := l'))) with h | h
        · rw [h]; exact hirr a
        · exact hs.1 b h
      have hab : lt a b = false := by
        rcases List.mem_cons.1 (hp.mem_iff.1 (List.mem_cons_self (a := a) (l := l))) with h | h
        · rw [h]; exact hirr b
        · exact hs'.1 a h
      have h := hf a
      rw [List.filter_cons_of_pos (by simp [hirr]), List.filter_cons_of_pos (by simp [hab, hba])] at h
      obtain ⟨rfl, _⟩ := List.cons.inj h
      congr 1
      refine ih l' hs.2 hs'.2 (List.Perm.cons_inv hp) ?_
      intro x
      have := hf x
      rw [List.filter_cons, List.filter_cons] at this
      split at this
      · exact (List.cons.inj this).2
      · exact this

theorem sort_unique (lt : Pair α μ → Pair α μ → Bool) (reverse : Bool)
    (hasymm : ∀ a b, lt a b = true → lt b a = false)
    (hweak : ∀ a b c, lt a c = true → lt a b = true ∨ lt b c = true) (l l' : List (Pair α μ))
    (h1 : l.Pairwise (fun a b => if reverse then lt a b = false else lt b a = false))
    (h2 : l'.Pairwise (fun a b => if reverse then lt a b = false else lt b a = false))
    (h3 : l.Perm l')
    (h4 : ∀ x, l.filter (fun y => !lt x y && !lt y x) = l'.filter (fun y => !lt x y && !lt y x)) : l = l' := by
  have hirr : ∀ a, lt a a = false := by
    intro a
    cases h : lt a a with
    | false => rfl
    | true => rw [hasymm a a h] at h; simp at h
  cases reverse with
  | false => exact sorted_unique lt hweak hirr l l' (by simpa using h1) (by simpa using h2) h3 h4
  | true =>
    refine sorted_unique (fun a b => lt b a) ?_ hirr l l' (by simpa using h1) (by simpa using h2) h3 ?_
    · intro a b c h; exact (hweak c b a h).symm
    · intro x
      have := h4 x
      have hcomm : (fun y => !lt y x && !lt x y) = (fun y => !lt x y && !lt y x) := by
        funext y; rw [Bool.and_comm]
      rw [hcomm]; exact this

/-- C137: lines_sort may come before or after a filter; sorting twice is the same as once. (`lt` compares the
keys.) -/
theorem C137_sort (lt : Pair α μ → Pair α μ → Bool) (reverse : Bool)
    (hasymm : ∀ a b, lt a b = true → lt b a = false)
    (hweak : ∀ a b c, lt a c = true → lt a b = true ∨ lt b c = true) (li : Stream α μ) :
    (∀ m, IsFilter m →
      Modifier.apply E (Modifier.apply E li m) (.sort lt reverse) =
        Modifier.apply E (Modifier.apply E li (.sort lt reverse)) m) ∧
    Modifier.apply E (Modifier.apply E li (.sort lt reverse)) (.sort lt reverse) =
      Modifier.apply E li (.sort lt reverse) := by
  obtain ⟨l, e⟩ := li
  cases e with
  | some e =>
    have hs : ∀ l : List (Pair α μ), Modifier.apply E (l, some e) (.sort lt reverse) = ([], some e) := fun l => rfl
    refine ⟨fun m hm => ?_, by rw [hs, hs]⟩
    rcases filter_form (E := E) hm with ⟨f, hf⟩ | hf
    · rw [hf, hs, hs, hf]; rfl
    · rw [hf, hf]; rfl
  | none =>
    obtain ⟨out, h1, h2, h3, h4⟩ := C63_lines_sort (E := E) l lt reverse hasymm hweak
    rw [h1]
    constructor
    · intro m hm
      rcases filter_form (E := E) hm with ⟨f, hf⟩ | hf
      · rw [hf, hf]
        dsimp only
        obtain ⟨out', g1, g2, g3, g4⟩ := C63_lines_sort (E := E) (l.filter (fun p => f p.2)) lt reverse hasymm hweak
        rw [g1]
        congr 1
        refine sort_unique lt reverse hasymm hweak _ _ g3 (h3.filter _) (g2.trans (h2.filter _).symm) ?_
        intro x
        rw [g4, List.filter_filter, List.filter_filter]
        have hc : ∀ l : List (Pair α μ), l.filter (fun a => (!lt x a && !lt a x) && f a.2) =
            (l.filter (fun a => !lt x a && !lt a x)).filter (fun a => f a.2) := by
          intro l
          rw [List.filter_filter]
          congr 1
          funext a; rw [Bool.and_comm]
        rw [hc, hc, h4]
      · rw [hf, hf]; rfl
    · obtain ⟨out', g1, g2, g3, g4⟩ := C63_lines_sort (E := E) out lt reverse hasymm hweak
      rw [g1]
      congr 1
      exact sort_unique lt reverse hasymm hweak _ _ g3 h3 g2 g4

/-! ### filters and stripping -/

/-- C137: empty lines filtered out before lines_strip (or lines_rstrip) need not have been, if they are filtered
out after it. -/
theorem C137_filter_empty_before (m : Modifier α μ) (hm : m = .strip none ∨ m = .rstrip none) (li : Stream α μ) :
    Modifier.apply E (Modifier.apply E (Modifier.apply E li .filterEmptyLines) m) .filterEmptyLines =
      Modifier.apply E (Modifier.apply E li m) .filterEmptyLines := by
  have key : ∀ f : Pair α μ → Except Err (Option (Pair α μ)), (∀ p, p.2 = [] → f p = .ok (some p)) →
      ∀ p, andThen (filterOne (fun line => !line.isEmpty)) (andThen f (filterOne (fun line => !line.isEmpty))) p =
        andThen f (filterOne (fun line => !line.isEmpty)) p := by
    intro f hf p
    by_cases h : p.2 = []
    · simp only [andThen, filterOne, h, hf p h, List.isEmpty_nil, Bool.not_true, Bool.false_eq_true, if_false]
    · have : p.2.isEmpty = false := by simpa using h
      simp only [andThen, filterOne, this, Bool.not_false, if_true]
  rcases hm with rfl | rfl
  · simp only [Modifier.apply]
    rw [each_each, each_each, each_each]
    refine each_congr (key _ fun p h => ?_) _ _
    exact stripOne_stripped (by simp [h]) (by simp [h])
  · simp only [Modifier.apply]
    rw [each_each, each_each, each_each]
    refine each_congr (key _ fun p h => ?_) _ _
    exact rstripOne_stripped (by simp [h])

/-- C137: lines_filter_line_comment_lines gives the same before lines_strip as after it, if no marker starts or
ends with whitespace (and every line can be stripped, as those of `lines` can). -/
theorem C137_comments_and_strip {markers : List (List α)} (hne : markers ≠ []) (he : [] ∉ markers)
    (hsp : ∀ m ∈ markers, ∀ c, m.head? = some c → E.isSpace c = false)
    (hend : ∀ m ∈ markers, ∀ c, m.getLast? = some c → E.isSpace c = false) (li : List (Pair α μ)) (e : Option Err)
    (hw : ∀ p ∈ li, Whole p) :
    Modifier.apply E (Modifier.apply E (li, e) (.filterLineCommentLines markers)) (.strip none) =
      Modifier.apply E (Modifier.apply E (li, e) (.strip none)) (.filterLineCommentLines markers) := by
  have hm : ¬ markers.isEmpty = true := by simpa using hne
  simp only [Modifier.apply]
  rw [if_neg hm, if_neg hm, each_each, each_each]
  have hcl : ∀ (line a t b : List α), Stripped E.isSpace line a t b →
      isCommentLine E markers t = isCommentLine E markers line := by
    intro line a t b hs
    obtain ⟨h1, h2, h3, h4, h5⟩ := hs
    rw [Bool.eq_iff_iff, isCommentLine_iff hne he hsp, isCommentLine_iff hne he hsp]
    unfold CommentLine
    have hd1 : t.dropWhile E.isSpace = t := dropWhile_of_head h4
    have hd2 : ∀ m ∈ markers, (m <+: line.dropWhile E.isSpace ↔ m <+: t) := by
      intro m hmm
      have hm0 : m ≠ [] := fun h => he (h ▸ hmm)
      rw [h1, List.append_assoc, List.dropWhile_append_of_pos h2]
      by_cases ht : t = []
      · subst ht
        have : b.dropWhile E.isSpace = [] := by
          have := List.dropWhile_append_of_pos (p := E.isSpace) (l₁ := b) (l₂ := []) h3
          simpa using this
        rw [List.nil_append, this]
      · rw [dropWhile_of_head (l := t ++ b) (by
          intro c hc
          cases t with
          | nil => exact absurd rfl ht
          | cons x t => exact h4 c hc)]
        constructor
        · intro h
          rcases Nat.lt_or_ge t.length m.length with hl | hl
          · exfalso
            -- the last character of the marker would be whitespace
            obtain ⟨r, hr⟩ := h
            rcases List.append_eq_append_iff.1 hr with ⟨c, c1, c2⟩ | ⟨c, c1, c2⟩
            · rw [c1, List.length_append] at hl; omega
            · have hc0 : c ≠ [] := by rintro rfl; rw [c1] at hl; simp at hl
              rcases List.eq_nil_or_concat c with h | ⟨c', x, h⟩
              · exact hc0 h
              · rw [List.concat_eq_append] at h
                have hx := hend m hmm x (by rw [c1, h]; simp)
                have := h3 x (by rw [c2, h]; simp)
                rw [hx] at this; simp at this
          · exact List.prefix_of_prefix_length_le h (List.prefix_append t b) hl
        · intro h; exact h.trans (List.prefix_append t b)
    rw [hd1]
    constructor
    · rintro ⟨m, h, h'⟩; exact ⟨m, h, (hd2 m h).2 h'⟩
    · rintro ⟨m, h, h'⟩; exact ⟨m, h, (hd2 m h).1 h'⟩
  have heach : ∀ l : List (Pair α μ), (∀ p ∈ l, Whole p) →
      each (andThen (filterOne fun line => !isCommentLine E markers line) (stripOne E)) l e =
      each (andThen (stripOne E) (filterOne fun line => !isCommentLine E markers line)) l e := by
    intro l
    induction l with
    | nil => intro _; rfl
    | cons p l ih =>
      intro hl
      have hp : andThen (filterOne fun line => !isCommentLine E markers line) (stripOne E) p =
          andThen (stripOne E) (filterOne fun line => !isCommentLine E markers line) p := by
        obtain ⟨out, o1, o2⟩ := C67_lines_strip (E := E) [p] (by simpa using hl p (by simp))
        cases hq : stripOne E p with
        | error e' => simp [Modifier.apply, each, hq] at o1
        | ok q =>
          cases q with
          | none =>
            simp only [Modifier.apply, each, hq] at o1
            simp only [Prod.mk.injEq, and_true] at o1
            subst o1
            have := o2.1; simp at this
          | some q =>
            simp only [Modifier.apply, each, hq, Prod.mk.injEq, and_true] at o1
            subst o1
            obtain ⟨⟨a, b, hs⟩, _⟩ := o2.2 0 p q rfl rfl
            have hc := hcl _ _ _ _ hs
            cases hcc : isCommentLine E markers p.2 with
            | true => rw [hcc] at hc; simp [andThen, filterOne, hq, hc, hcc]
            | false => rw [hcc] at hc; simp [andThen, filterOne, hq, hc, hcc]
      unfold each
      rw [hp, ih (fun q hq => hl q (by simp [hq]))]
  exact heach li hw

/-! ### examples -/

example : run strEnv " a \n\t\n# b\n  c\t" [.strip none]
      = ([⟨2, " ", "a", " ", "\n", 0⟩, ⟨1, "", "", "\t", "\n", 0⟩, ⟨1, "", "# b", "", "\n", 0⟩, ⟨3, "  ", "c", "\t", "", 0⟩], none) ∧
    run strEnv " a \n\t\n# b\n  c\t" [.rstrip none, .strip none, .strip none, .rstrip none]
      = run strEnv " a \n\t\n# b\n  c\t" [.strip none] ∧
    run strEnv " a \n\t\n# b\n  c\t" [.filterLineCommentLines ["#".toList], .strip none]
      = ([⟨2, " ", "a", " ", "\n", 0⟩, ⟨1, "", "", "\t", "\n", 0⟩, ⟨3, "  ", "c", "\t", "", 0⟩], none) ∧
    run strEnv "a \n\t\n# b\n" [.strip none, .filterLineCommentLines ["#".toList], .filterEmptyLines]
      = ([⟨1, "", "a", " ", "\n", 0⟩], none) := by decide +kernel

/-- Not every order gives the same: empty lines filtered out before lines_strip leave the blank ones. -/
theorem C137_order_matters :
    run strEnv "a\n \n" [.filterEmptyLines, .strip none] ≠ run strEnv "a\n \n" [.strip none, .filterEmptyLines] ∧
    run strEnv "a\n \n" [.strip none, .containing " ".toList false] ≠
      run strEnv "a\n \n" [.containing " ".toList false, .strip none] := by decide +kernel

end Big.Lines
