import Verif.Lines.Comments
/-!
# C50, C65, C67: chains of lines modifiers
-/
namespace Big.Lines
open Big.MS
open Big.MS.Spec

variable {α μ : Type} [DecidableEq α] {E : Env α}

/-- Every pair of `out` comes from a pair of `li`. -/
def From (E : Env α) (li out : List (Pair α μ)) : Prop := ∀ q ∈ out, ∃ p ∈ li, Same E p q

/-- All the pairs are whole. -/
def AllWhole (li : List (Pair α μ)) : Prop := ∀ p ∈ li, Whole p

theorem each_from {f : Pair α μ → Except Err (Option (Pair α μ))}
    (hf : ∀ p, Whole p → (∃ e, f p = .error e ∧ e ≠ .assertionError) ∨
      ∃ o, f p = .ok o ∧ ∀ q, o = some q → Same E p q)
    (e : Option Err) : ∀ li : List (Pair α μ), AllWhole li →
    From E li (each f li e).1 ∧ ((each f li e).2 = some .assertionError → e = some .assertionError)
  | [], _ => ⟨by intro q hq; simp [each] at hq, by simp [each]⟩
  | p :: rest, hw => by
    have ih := each_from hf e rest (fun q hq => hw q (by simp [hq]))
    have ih1 : From E (p :: rest) (each f rest e).1 := by
      intro q hq
      obtain ⟨p', h1, h2⟩ := ih.1 q hq
      exact ⟨p', by simp [h1], h2⟩
    unfold each
    rcases hf p (hw p (by simp)) with ⟨e', h, he'⟩ | ⟨o, h, ho⟩
    · rw [h]
      refine ⟨by intro q hq; simp at hq, fun h' => ?_⟩
      simp at h'; exact absurd h' he'
    · rw [h]
      cases o with
      | none => exact ⟨ih1, ih.2⟩
      | some q =>
        refine ⟨?_, ih.2⟩
        intro q' hq'
        rcases List.mem_cons.1 hq' with rfl | hq'
        · exact ⟨p, by simp, ho _ rfl⟩
        · exact ih1 q' hq'

theorem filterOne_keeps (f : List α → Bool) (p : Pair α μ) (hw : Whole p) :
    ∃ o, filterOne f p = .ok o ∧ ∀ q, o = some q → Same E p q := by
  refine ⟨_, rfl, ?_⟩
  intro q hq
  split at hq
  · simp at hq; subst hq; exact .refl hw
  · simp at hq

theorem setAttr_same (p : Pair α μ) (name : String) (m : Option μ) (hw : Whole p) :
    Same E p (setAttr p.1 name m, p.2) := ⟨rfl, rfl, rfl, hw, id, id⟩

theorem setIndent_same {p q : Pair α μ} (n : Int) (h : Same E p q) : Same E p (setIndent q n) :=
  ⟨h.line, h.number, h.lineEnd, h.whole, h.empty, h.column⟩

theorem grepOne_keeps (search : List α → Option μ) (name : String) (invert : Bool) (p : Pair α μ)
    (hw : Whole p) : ∃ o, grepOne search name invert p = .ok o ∧ ∀ q, o = some q → Same E p q := by
  unfold grepOne
  split
  · refine ⟨_, rfl, ?_⟩
    intro q hq
    split at hq
    · simp at hq
    · simp at hq; subst hq; exact setAttr_same _ _ _ hw
  · refine ⟨_, rfl, ?_⟩
    intro q hq
    split at hq
    · simp at hq; subst hq; exact setAttr_same _ _ _ hw
    · simp at hq

theorem sort_mem (lt : Pair α μ → Pair α μ → Bool) (reverse : Bool) (l : List (Pair α μ)) (q : Pair α μ) :
    q ∈ sort lt reverse l ↔ q ∈ l := by
  unfold sort
  split
  · rw [List.mem_reverse, (List.mergeSort_perm _ _).mem_iff, List.mem_reverse]
  · rw [(List.mergeSort_perm _ _).mem_iff]

theorem commentLoop_from (hc : CacheOK E.sq.cache) (hsort : ∀ l w, w ∈ E.sq.sort l ↔ w ∈ l) (a : Comments α)
    (hne : a.markers ≠ []) (he : [] ∉ a.markers) (e : Option Err) :
    ∀ (li : List (Pair α μ)) (st : List α), AllWhole li → (st ≠ [] → st ∈ a.multilineQuotes) →
    From E li (commentLoop E a st li e).1 ∧
      ((commentLoop E a st li e).2 = some .assertionError → e = some .assertionError)
  | [], st, _, _ => by
    cases e with
    | none =>
      refine ⟨by intro q hq; simp [commentLoop] at hq, ?_⟩
      simp only [commentLoop]
      split <;> simp
    | some e => exact ⟨by intro q hq; simp [commentLoop] at hq, by simp [commentLoop]⟩
  | p :: rest, st, hw, hst => by
    unfold commentLoop
    rcases commentOne_cases hc hsort a hne he st hst p (hw p (by simp)) with h | h | ⟨q, st', h, h1, h2⟩
    · rw [h]; exact ⟨by intro q hq; simp at hq, by simp⟩
    · rw [h]; exact ⟨by intro q hq; simp at hq, by simp⟩
    · rw [h]
      have ih := commentLoop_from hc hsort a hne he e rest st' (fun q hq => hw q (by simp [hq])) h2
      refine ⟨?_, ih.2⟩
      intro q' hq'
      rcases List.mem_cons.1 hq' with rfl | hq'
      · exact ⟨p, by simp, h1⟩
      · obtain ⟨p', g1, g2⟩ := ih.1 q' hq'
        exact ⟨p', by simp [g1], g2⟩

/-- Clipping the leading whitespace of a line that is not blank. -/
theorem clipLead_spec (p : Pair α μ) (hw : Whole p) :
    ∃ q, clipLeading E p.1 p.2 (p.2.length - (lstrip E p.2).length) none = .ok q ∧ Same E p q ∧
      q.2 = lstrip E p.2 := by
  obtain ⟨info, line⟩ := p
  have ha : line = line.take (line.length - (lstrip E line).length) ++ lstrip E line := dropWhile_split _ _
  have hl : ((line.length : Int) - (lstrip E line).length)
      = (line.take (line.length - (lstrip E line).length)).length := by
    have h1 := congrArg List.length ha
    rw [List.length_append] at h1
    omega
  dsimp only
  rw [hl]
  generalize line.take (line.length - (lstrip E line).length) = lead at ha ⊢
  generalize lstrip E line = l at ha ⊢
  subst ha
  exact clipLeading_spec hw none (by simp)

theorem clipBlank_spec (p : Pair α μ) (hw : Whole p) :
    ∃ q, clipTrailing p.1 p.2 p.2.length (some p.2) = .ok q ∧ Same E p q ∧ q.2 = [] := by
  obtain ⟨info, line⟩ := p
  exact clipTrailing_spec (a := []) (b := line) hw line rfl (fun _ => rfl)

theorem indentLoop_from (e : Option Err) :
    ∀ (li : List (Pair α μ)) (leadings : List Int) (blank : List (Pair α μ)) (li0 : List (Pair α μ)),
    AllWhole li → From E li0 blank → (∀ p ∈ li, p ∈ li0) →
    From E li0 (indentLoop E li e leadings blank).1
  | [], leadings, blank, li0, _, hb, _ => by
    cases e with
    | none =>
      intro q hq
      simp only [indentLoop, List.mem_map] at hq
      obtain ⟨q', h1, rfl⟩ := hq
      obtain ⟨p, g1, g2⟩ := hb q' h1
      exact ⟨p, g1, setIndent_same 0 g2⟩
    | some e => intro q hq; simp [indentLoop] at hq
  | p :: rest, leadings, blank, li0, hw, hb, hin => by
    unfold indentLoop
    dsimp only
    have hw' : AllWhole rest := fun q hq => hw q (by simp [hq])
    have hin' : ∀ p ∈ rest, p ∈ li0 := fun q hq => hin q (by simp [hq])
    by_cases hbl : (lstrip E p.2).isEmpty = true
    · rw [if_pos hbl]
      obtain ⟨q, h1, h2, -⟩ := clipBlank_spec (E := E) p (hw p (by simp))
      rw [h1]
      refine indentLoop_from e rest leadings _ li0 hw' ?_ hin'
      intro q' hq'
      rcases List.mem_append.1 hq' with hq' | hq'
      · exact hb q' hq'
      · rw [List.mem_singleton.1 hq']
        exact ⟨p, hin p (by simp), h2⟩
    · rw [if_neg hbl]
      obtain ⟨q, h1, h2, -⟩ := clipLead_spec (E := E) p (hw p (by simp))
      rw [h1]
      dsimp only
      split
      · intro q' hq'; simp at hq'
      · intro q' hq'
        rcases List.mem_append.1 hq' with hq' | hq'
        · obtain ⟨b, g1, rfl⟩ := List.mem_map.1 hq'
          obtain ⟨p', g2, g3⟩ := hb b g1
          exact ⟨p', g2, setIndent_same _ g3⟩
        · rcases List.mem_cons.1 hq' with rfl | hq'
          · exact ⟨p, hin p (by simp), setIndent_same _ h2⟩
          · exact indentLoop_from e rest _ [] li0 hw' (by intro q hq; simp at hq) hin' q' hq'

theorem expandLoop_length (ht : E.tabWidth > 0) : ∀ (s : List α) (j : Nat), s.length ≤ (expandLoop E j s).length
  | [], _ => by simp
  | c :: s, j => by
    unfold expandLoop
    split
    · dsimp only
      have := expandLoop_length ht s (j + (E.tabWidth.toNat - j % E.tabWidth.toNat))
      have h2 : j % E.tabWidth.toNat < E.tabWidth.toNat := Nat.mod_lt _ (by omega)
      simp only [List.length_cons, List.length_append, List.length_replicate]
      omega
    · have := expandLoop_length ht s (if c = E.nl ∨ c = E.cr then 0 else j + 1)
      simp only [List.length_cons]; omega

/-- With a positive tab width, a line that starts at the first column has nothing clipped before it. -/
theorem column_first (ht : E.tabWidth > 0) {p : Pair α μ} (hcol : Column E p) (hne : p.2 ≠ [])
    (h : p.1.columnNumber = E.column) : p.1.leading = [] := by
  obtain ⟨as, h1, h2⟩ := hcol.2 hne
  have hle : ∀ l : List (List α), (l.flatten.length : Int) ≤ (l.map (fun a => ((detab E a).length : Int))).sum := by
    intro l
    induction l with
    | nil => simp
    | cons a l ih =>
      have := expandLoop_length ht a 0
      simp only [List.flatten_cons, List.length_append, List.map_cons, List.sum_cons, detab] at ih ⊢
      omega
  have := hle as
  rw [← h1] at this
  exact List.length_eq_zero_iff.1 (by omega)

theorem indentLoop_assert (ht : E.tabWidth > 0) (e : Option Err) :
    ∀ (li : List (Pair α μ)) (leadings : List Int) (blank : List (Pair α μ)),
    AllWhole li → (∀ p ∈ li, Column E p) → (indentLoop E li e leadings blank).2 = some .assertionError →
    e = some .assertionError
  | [], leadings, blank, _, _ => by
    cases e with
    | none => simp [indentLoop]
    | some e => simp [indentLoop]
  | p :: rest, leadings, blank, hw, hcol => by
    unfold indentLoop
    dsimp only
    have ih := fun l b => indentLoop_assert ht e rest l b (fun q hq => hw q (by simp [hq]))
      (fun q hq => hcol q (by simp [hq]))
    by_cases hbl : (lstrip E p.2).isEmpty = true
    · rw [if_pos hbl]
      obtain ⟨q, h1, h2, -⟩ := clipBlank_spec (E := E) p (hw p (by simp))
      rw [h1]
      exact ih _ _
    · rw [if_neg hbl]
      obtain ⟨q, h1, h2, h3⟩ := clipLead_spec (E := E) p (hw p (by simp))
      rw [h1]
      dsimp only
      have hq := h2.column (hcol p (by simp))
      have hqne : q.2 ≠ [] := by rw [h3]; simpa using hbl
      split
      · rename_i e' he'
        intro h
        simp only [Option.some.injEq] at h
        subst h
        exfalso
        unfold indentStep at he'
        dsimp only at he'
        split at he'
        · rename_i hc
          rw [column_first ht hq hqne hc] at he'
          simp at he'
        · split at he'
          · simp at he'
          · split at he'
            · simp at he'
            · split at he'
              · simp at he'
              · split at he'
                · simp at he'
                · simp at he'
      · exact ih _ _

/-- The modifiers of a chain are used as they should be: comment markers, which must not be empty. -/
def Modifier.Legal : Modifier α μ → Prop
  | .stripLineComments a => [] ∉ a.markers
  | .convertTabsToSpaces => False
  | _ => True

theorem apply_from (hc : CacheOK E.sq.cache) (hsort : ∀ l w, w ∈ E.sq.sort l ↔ w ∈ l)
    (li : Stream α μ) (hw : AllWhole li.1) (m : Modifier α μ) (hm : m.Legal) :
    From E li.1 (m.apply E li).1 ∧
    (E.tabWidth > 0 → (∀ p ∈ li.1, Column E p) → (m.apply E li).2 = some .assertionError →
      li.2 = some .assertionError) := by
  have hself : From E li.1 li.1 := fun p hp => ⟨p, hp, .refl (hw p hp)⟩
  have hnil : From E li.1 [] := by intro q hq; simp at hq
  have viaEach : ∀ f : Pair α μ → Except Err (Option (Pair α μ)),
      (∀ p, Whole p → (∃ e, f p = .error e ∧ e ≠ .assertionError) ∨
        ∃ o, f p = .ok o ∧ ∀ q, o = some q → Same E p q) →
      From E li.1 (each f li.1 li.2).1 ∧
      (E.tabWidth > 0 → (∀ p ∈ li.1, Column E p) → (each f li.1 li.2).2 = some .assertionError →
        li.2 = some .assertionError) := by
    intro f hf
    have := each_from hf li.2 li.1 hw
    exact ⟨this.1, fun _ _ => this.2⟩
  cases m with
  | rstrip seps =>
    cases seps with
    | none =>
      refine viaEach _ (fun p hp => .inr ?_)
      obtain ⟨q, h1, h2, -⟩ := rstripOne_spec (E := E) p hp
      exact ⟨_, h1, fun q' hq' => by simp at hq'; subst hq'; exact h2⟩
    | some seps =>
      refine viaEach _ (fun p hp => ?_)
      rcases rstripSepsOne_spec (E := E) seps p hp with ⟨h, -⟩ | ⟨q, h1, h2, -⟩
      · exact .inl ⟨_, h, by simp⟩
      · exact .inr ⟨_, h1, fun q' hq' => by simp at hq'; subst hq'; exact h2⟩
  | strip seps =>
    cases seps with
    | none =>
      refine viaEach _ (fun p hp => .inr ?_)
      obtain ⟨q, h1, h2, -⟩ := stripOne_spec (E := E) p hp
      exact ⟨_, h1, fun q' hq' => by simp at hq'; subst hq'; exact h2⟩
    | some seps =>
      refine viaEach _ (fun p hp => ?_)
      rcases stripSepsOne_spec (E := E) seps p hp with ⟨h, -⟩ | ⟨q, h1, h2, -⟩
      · exact .inl ⟨_, h, by simp⟩
      · exact .inr ⟨_, h1, fun q' hq' => by simp at hq'; subst hq'; exact h2⟩
  | filterLineCommentLines markers =>
    simp only [Modifier.apply]
    split
    · exact ⟨hnil, by simp⟩
    · exact viaEach _ (fun p hp => .inr (filterOne_keeps _ p hp))
  | containing s invert => exact viaEach _ (fun p hp => .inr (filterOne_keeps _ p hp))
  | grep search name invert => exact viaEach _ (fun p hp => .inr (grepOne_keeps _ _ _ p hp))
  | filterEmptyLines => exact viaEach _ (fun p hp => .inr (filterOne_keeps _ p hp))
  | sort lt reverse =>
    simp only [Modifier.apply]
    split
    · rename_i e he
      exact ⟨hnil, fun _ _ h => by rw [he]; exact h⟩
    · exact ⟨fun q hq => hself q ((sort_mem _ _ _ _).1 hq), by simp⟩
  | stripLineComments a =>
    simp only [Modifier.apply]
    split
    · exact ⟨hnil, by simp⟩
    · rename_i hne
      split
      · rename_i e he
        refine ⟨hnil, fun _ _ h => ?_⟩
        exfalso
        unfold segmentsOf at he
        split at he
        · simp at he
        · split at he
          · simp at he; subst he; simp at h
          · simp at he
      · have := commentLoop_from hc hsort a (by simpa using hne) hm li.2 li.1 [] hw (by simp)
        exact ⟨this.1, fun _ _ => this.2⟩
  | convertTabsToSpaces => exact absurd hm (by simp [Modifier.Legal])
  | stripIndent =>
    exact ⟨indentLoop_from li.2 li.1 [] [] li.1 hw hnil (fun _ h => h),
      fun ht hcol => indentLoop_assert ht li.2 li.1 [] [] hw hcol⟩

theorem chain_from (hc : CacheOK E.sq.cache) (hsort : ∀ l w, w ∈ E.sq.sort l ↔ w ∈ l)
    (ms : List (Modifier α μ)) : ∀ (li : Stream α μ), AllWhole li.1 → (∀ m ∈ ms, m.Legal) →
    From E li.1 (chain E li ms).1 ∧
    (E.tabWidth > 0 → (∀ p ∈ li.1, Column E p) → (chain E li ms).2 = some .assertionError →
      li.2 = some .assertionError) := by
  induction ms with
  | nil => intro li hw _; exact ⟨fun p hp => ⟨p, hp, .refl (hw p hp)⟩, fun _ _ h => h⟩
  | cons m ms ih =>
    intro li hw hm
    have h1 := apply_from hc hsort li hw m (hm m (by simp))
    have h2 := ih (m.apply E li) (by
      intro q hq
      obtain ⟨p, -, h⟩ := h1.1 q hq
      exact h.whole) (fun m' hm' => hm m' (by simp [hm']))
    refine ⟨?_, ?_⟩
    · intro q hq
      obtain ⟨p', g1, g2⟩ := h2.1 q hq
      obtain ⟨p, g3, g4⟩ := h1.1 p' g1
      exact ⟨p, g3, g4.trans g2⟩
    · intro ht hcol h
      refine h1.2 ht hcol (h2.2 ht ?_ h)
      intro q hq
      obtain ⟨p, g1, g2⟩ := h1.1 q hq
      exact g2.column (hcol p g1)

theorem lines_pair (n : Int) (src : Source α) (p : Pair α μ) (hp : p ∈ (lines E n src).1) :
    Whole p ∧ Column E p := by
  have key : ∀ l : List (List α × List α), ∀ n : Int, p ∈ number E n l → Whole p ∧ Column E p := by
    intro l n hp
    obtain ⟨i, hi⟩ := List.getElem?_of_mem hp
    rw [number_get] at hi
    cases hx : l[i]? with
    | none => rw [hx] at hi; simp at hi
    | some x =>
      rw [hx] at hi
      simp only [Option.map_some, Option.some.injEq] at hi
      subst hi
      refine ⟨by simp [Whole, linePair], by simp [linePair], fun _ => ⟨[], by simp [linePair], by simp [linePair]⟩⟩
  cases src with
  | text s seps =>
    simp only [lines] at hp
    split at hp
    · simp at hp
    · exact key _ _ hp
  | strings l => exact key _ _ hp
  | pairs l => exact key _ _ hp

theorem lines_error (n : Int) (src : Source α) : (lines (μ := μ) E n src).2 ≠ some .assertionError := by
  cases src with
  | text s seps => simp only [lines]; split <;> simp
  | strings l => simp [lines]
  | pairs l => simp [lines]

/-- C50: after any chain of lines modifiers (other than lines_convert_tabs_to_spaces) on any lines
iterator, what was clipped before the line, the line, what was clipped after it and the linebreak are,
joined, the line as `lines` yielded it; and the line number and the linebreak are the original ones. -/
theorem C50_chains_keep_lines_whole (hc : CacheOK E.sq.cache) (hsort : ∀ l w, w ∈ E.sq.sort l ↔ w ∈ l)
    (n : Int) (src : Source α) (ms : List (Modifier α μ)) (hms : ∀ m ∈ ms, m.Legal) :
    ∀ q ∈ (chain E (lines E n src) ms).1,
      q.1.leading ++ q.2 ++ q.1.trailing ++ q.1.lineEnd = q.1.line ∧
      ∃ p ∈ (lines (μ := μ) E n src).1,
        q.1.line = p.1.line ∧ q.1.lineNumber = p.1.lineNumber ∧ q.1.lineEnd = p.1.lineEnd := by
  intro q hq
  obtain ⟨p, h1, h2⟩ := (chain_from hc hsort ms (lines E n src) (fun p hp => (lines_pair n src p hp).1) hms).1 q hq
  exact ⟨h2.whole, p, h1, h2.line, h2.number, h2.lineEnd⟩

/-- C50: with a positive tab width no assertion in the code fails, in any chain. -/
theorem C50_no_assertion_fails (hc : CacheOK E.sq.cache) (hsort : ∀ l w, w ∈ E.sq.sort l ↔ w ∈ l)
    (ht : E.tabWidth > 0) (n : Int) (src : Source α) (ms : List (Modifier α μ)) (hms : ∀ m ∈ ms, m.Legal) :
    (chain E (lines (μ := μ) E n src) ms).2 ≠ some .assertionError := by
  intro h
  exact lines_error n src ((chain_from hc hsort ms (lines E n src) (fun p hp => (lines_pair n src p hp).1) hms).2 ht
    (fun p hp => (lines_pair n src p hp).2) h)

/-- C65: after any such chain, if the original line has no tabs, column_number is the first column plus
the number of characters clipped before the line. -/
theorem C65_column_number_no_tabs (hc : CacheOK E.sq.cache) (hsort : ∀ l w, w ∈ E.sq.sort l ↔ w ∈ l)
    (n : Int) (src : Source α) (ms : List (Modifier α μ)) (hms : ∀ m ∈ ms, m.Legal) :
    ∀ q ∈ (chain E (lines E n src) ms).1, E.tab ∉ q.1.line →
      q.1.columnNumber = E.column + q.1.leading.length := by
  intro q hq ht
  obtain ⟨p, h1, h2⟩ := (chain_from hc hsort ms (lines E n src) (fun p hp => (lines_pair n src p hp).1) hms).1 q hq
  exact (h2.column (lines_pair n src p h1).2).1 ht

/-- C65: whatever the tabs, if the line is not empty: `leading` consists of the pieces clipped one after
the other, and column_number is the first column plus the lengths of the pieces, each with its tabs
expanded as if it started at column 0. -/
theorem C65_column_number_of_pieces (hc : CacheOK E.sq.cache) (hsort : ∀ l w, w ∈ E.sq.sort l ↔ w ∈ l)
    (n : Int) (src : Source α) (ms : List (Modifier α μ)) (hms : ∀ m ∈ ms, m.Legal) :
    ∀ q ∈ (chain E (lines E n src) ms).1, q.2 ≠ [] →
      ∃ pieces : List (List α), q.1.leading = pieces.flatten ∧
        q.1.columnNumber = E.column + (pieces.map (fun a => ((detab E a).length : Int))).sum := by
  intro q hq ht
  obtain ⟨p, h1, h2⟩ := (chain_from hc hsort ms (lines E n src) (fun p hp => (lines_pair n src p hp).1) hms).1 q hq
  exact (h2.column (lines_pair n src p h1).2).2 ht

end Big.Lines
