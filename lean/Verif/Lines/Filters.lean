import Verif.Lines.Strip
/-!
# C63: the filters and lines_sort; C66: whole streams
-/
namespace Big.Lines
open Big.MS
open Big.MS.Spec
open Big.Rx

variable {α μ : Type} [DecidableEq α] {E : Env α}

/-! ### specification -/

/-- The first characters of the line that are not whitespace are a marker. -/
def CommentLine (sp : α → Bool) (markers : List (List α)) (line : List α) : Prop :=
  ∃ m ∈ markers, m <+: line.dropWhile sp

instance (sp : α → Bool) (markers : List (List α)) (line : List α) : Decidable (CommentLine sp markers line) :=
  inferInstanceAs (Decidable (∃ m ∈ markers, m <+: line.dropWhile sp))

/-! ### proof -/

omit [DecidableEq α] in
theorem each_filter (f : List α → Bool) (e : Option Err) : ∀ li : List (Pair α μ),
    each (filterOne f) li e = (li.filter (fun p => f p.2), e)
  | [] => rfl
  | p :: li => by
    have ih := each_filter f e li
    have hp : filterOne f p = .ok (if f p.2 then some p else none) := rfl
    unfold each
    rw [hp, List.filter_cons]
    by_cases h : f p.2 = true
    · rw [if_pos h, if_pos h]; simp [ih]
    · rw [if_neg h, if_neg h]; exact ih

theorem contains_iff (s : List α) : ∀ t, contains s t = true ↔ s <:+: t
  | [] => by simp [contains]
  | c :: t => by
    unfold contains
    rw [Bool.or_eq_true, contains_iff s t, List.infix_cons_iff, List.isPrefixOf_iff_prefix]

omit [DecidableEq α] in
theorem star_cls_isSome {R : Type} {p : α → Bool} {k : List α → Caps α → Option R} {c : Caps α} (s : List α) :
    ((Rx.star (.cls p)).m s c k).isSome ↔ ∃ u v, s = u ++ v ∧ (∀ x ∈ u, p x = true) ∧ (k v c).isSome := by
  have key : ∀ (s : List α) (n : Nat), s.length ≤ n → ((mstar (Rx.cls p).m n s c k).isSome ↔
      ∃ u v, s = u ++ v ∧ (∀ x ∈ u, p x = true) ∧ (k v c).isSome) := by
    intro s
    induction s with
    | nil =>
      intro n _
      have : mstar (Rx.cls p).m n [] c k = k [] c := by
        cases n with
        | zero => rfl
        | succ n => simp [mstar, Rx.m]
      rw [this]
      constructor
      · intro h; exact ⟨[], [], rfl, by simp, h⟩
      · rintro ⟨u, v, h, -, hk⟩
        rw [(List.append_eq_nil_iff.1 h.symm).2] at hk; exact hk
    | cons x s ih =>
      intro n hn
      cases n with
      | zero => simp at hn
      | succ n =>
        by_cases hp : p x = true
        · rw [mstar_cls_cons hp, Option.isSome_or, Bool.or_eq_true, ih n (by simpa using hn)]
          constructor
          · rintro (⟨u, v, h1, h2, h3⟩ | h)
            · exact ⟨x :: u, v, by rw [h1]; rfl, by simpa [hp] using h2, h3⟩
            · exact ⟨[], x :: s, rfl, by simp, h⟩
          · rintro ⟨u, v, h1, h2, h3⟩
            cases u with
            | nil => right; rw [show x :: s = v from h1]; exact h3
            | cons y u =>
              left
              simp only [List.cons_append, List.cons.injEq] at h1
              exact ⟨u, v, h1.2, fun z hz => h2 z (by simp [hz]), h3⟩
        · have : mstar (Rx.cls p).m (n + 1) (x :: s) c k = k (x :: s) c := by
            simp [mstar, Rx.m, hp]
          rw [this]
          constructor
          · intro h; exact ⟨[], x :: s, rfl, by simp, h⟩
          · rintro ⟨u, v, h1, h2, h3⟩
            cases u with
            | nil => rw [show x :: s = v from h1]; exact h3
            | cons y u =>
              simp only [List.cons_append, List.cons.injEq] at h1
              exact absurd (h1.1 ▸ h2 y (by simp)) hp
  exact key s _ (Nat.le_refl _)

/-- The regular expression for several markers. -/
theorem match0_comment {markers : List (List α)} (hne : markers ≠ []) (he : [] ∉ markers) (line : List α) :
    (match0 (.seq (.star (.cls E.isSpace)) (sepRe markers false)) line).isSome ↔
      ∃ u m, m ∈ markers ∧ (∀ c ∈ u, E.isSpace c = true) ∧ u ++ m <+: line := by
  unfold match0 Rx.matchStart
  simp only [Option.isSome_map, m_seq]
  rw [star_cls_isSome]
  constructor
  · rintro ⟨u, v, h1, h2, h3⟩
    have : (match0 (sepRe markers false) v).isSome := by
      unfold match0 Rx.matchStart; rw [Option.isSome_map]; exact h3
    rcases match0_sepRe hne he false v with ⟨m, rest, g1, g2, g3⟩ | ⟨-, g⟩
    · simp only [SepAt, Bool.false_eq_true, if_false] at g2
      cases g2.2 with
      | done => exact absurd rfl g2.1
      | @more w m' rest' hl hr =>
        refine ⟨u, w, hl.1, h2, ?_⟩
        rw [h1, g1]
        exact ⟨m' ++ rest, by simp⟩
    · rw [g] at this; simp at this
  · rintro ⟨u, m, h1, h2, r, h3⟩
    refine ⟨u, m ++ r, by rw [← h3]; simp, h2, ?_⟩
    rcases match0_sepRe hne he false (m ++ r) with ⟨m', rest, -, -, g⟩ | ⟨g, -⟩
    · unfold match0 Rx.matchStart at g
      have := congrArg Option.isSome g
      rw [Option.isSome_map] at this
      simpa using this
    · exact absurd (List.prefix_append m r) (g m h1)

theorem isCommentLine_iff {markers : List (List α)} (hne : markers ≠ []) (he : [] ∉ markers)
    (hsp : ∀ m ∈ markers, ∀ c, m.head? = some c → E.isSpace c = false) (line : List α) :
    isCommentLine E markers line = true ↔ CommentLine E.isSpace markers line := by
  have hmany : (match0 (.seq (.star (.cls E.isSpace)) (sepRe markers false)) line).isSome ↔
      CommentLine E.isSpace markers line := by
    rw [match0_comment hne he]
    constructor
    · rintro ⟨u, m, h1, h2, r, h3⟩
      refine ⟨m, h1, r, ?_⟩
      cases m with
      | nil => exact absurd h1 he
      | cons c m =>
        have hc := hsp _ h1 c rfl
        rw [← h3, List.append_assoc]
        clear h3
        induction u with
        | nil => simp [List.dropWhile_cons, hc]
        | cons x u ih =>
          show _ = List.dropWhile _ (x :: (u ++ (c :: m ++ r)))
          rw [List.dropWhile_cons, if_pos (h2 x (by simp))]
          exact ih (fun y hy => h2 y (by simp [hy]))
    · rintro ⟨m, h1, r, h3⟩
      refine ⟨line.takeWhile E.isSpace, m, h1, fun c hc => List.all_eq_true.1 List.all_takeWhile c hc, r, ?_⟩
      rw [List.append_assoc, h3]; exact List.takeWhile_append_dropWhile
  unfold isCommentLine
  match markers with
  | [] => exact absurd rfl hne
  | [m] =>
    dsimp only
    rw [List.isPrefixOf_iff_prefix]
    unfold CommentLine lstrip
    simp
  | a :: b :: l => exact hmany

theorem each_grep (search : List α → Option μ) (name : String) (invert : Bool) (e : Option Err) :
    ∀ li : List (Pair α μ), each (grepOne search name invert) li e
      = ((li.filter (fun p => (search p.2).isSome != invert)).map
          (fun p => (setAttr p.1 name (search p.2), p.2)), e)
  | [] => rfl
  | p :: li => by
    have ih := each_grep search name invert e li
    unfold each
    cases hs : search p.2 with
    | none =>
      have hp : grepOne search name invert p
          = .ok (if invert then some (setAttr p.1 name none, p.2) else none) := by
        unfold grepOne; rw [hs]
      rw [hp, List.filter_cons]
      cases invert <;> simp [ih, hs]
    | some m =>
      have hp : grepOne search name invert p
          = .ok (if invert then none else some (setAttr p.1 name (some m), p.2)) := by
        unfold grepOne; rw [hs]
      rw [hp, List.filter_cons]
      cases invert <;> simp [ih, hs]

/-- C63: lines_containing yields exactly the pairs whose line contains `s` (or does not, if `invert`),
unchanged and in order. -/
theorem C63_lines_containing (li : List (Pair α μ)) (e : Option Err) (s : List α) :
    Modifier.apply E (li, e) (.containing s false) = (li.filter (fun p => decide (s <:+: p.2)), e) ∧
    Modifier.apply E (li, e) (.containing s true) = (li.filter (fun p => !decide (s <:+: p.2)), e) := by
  have h : ∀ t, contains s t = decide (s <:+: t) := fun t => by
    rw [Bool.eq_iff_iff, contains_iff]; simp
  simp only [Modifier.apply]
  rw [each_filter, each_filter]
  simp [h]

/-- C63: lines_filter_empty_lines yields exactly the pairs whose line is not empty. -/
theorem C63_filter_empty_lines (li : List (Pair α μ)) (e : Option Err) :
    Modifier.apply E (li, e) .filterEmptyLines = (li.filter (fun p => decide (p.2 ≠ [])), e) := by
  simp only [Modifier.apply]
  rw [each_filter]
  congr 2
  funext p
  cases p.2 <;> simp

/-- C63: lines_grep yields exactly the pairs whose line the pattern matches (or does not, if `invert`), in
order, unchanged but for the match (or None) stored in the attribute. -/
theorem C63_lines_grep (li : List (Pair α μ)) (e : Option Err) (search : List α → Option μ) (name : String) :
    Modifier.apply E (li, e) (.grep search name false)
      = ((li.filter (fun p => (search p.2).isSome)).map
          (fun p => ({ p.1 with attrs := (name, search p.2) :: p.1.attrs }, p.2)), e) ∧
    Modifier.apply E (li, e) (.grep search name true)
      = ((li.filter (fun p => (search p.2).isNone)).map
          (fun p => ({ p.1 with attrs := (name, none) :: p.1.attrs }, p.2)), e) := by
  simp only [Modifier.apply]
  rw [each_grep, each_grep]
  refine ⟨?_, ?_⟩
  · simp [setAttr]
  · have hf : (li.filter (fun p => (search p.2).isSome != true)) = li.filter (fun p => (search p.2).isNone) := by
      congr 1; funext p; cases search p.2 <;> rfl
    rw [hf]
    congr 1
    apply List.map_congr_left
    intro p hp
    have := (List.mem_filter.1 hp).2
    rw [Option.isNone_iff_eq_none.1 this]
    rfl

/-- C63: lines_filter_line_comment_lines yields exactly the pairs whose line is no comment line: whose first
characters that are not whitespace are no marker. (The markers must not be empty or start with
whitespace.) -/
theorem C63_filter_line_comment_lines (li : List (Pair α μ)) (e : Option Err) {markers : List (List α)}
    (hne : markers ≠ []) (he : [] ∉ markers)
    (hsp : ∀ m ∈ markers, ∀ c, m.head? = some c → E.isSpace c = false) :
    Modifier.apply E (li, e) (.filterLineCommentLines markers)
      = (li.filter (fun p => !decide (CommentLine E.isSpace markers p.2)), e) := by
  simp only [Modifier.apply]
  rw [if_neg (by simpa using hne), each_filter]
  congr 2
  funext p
  congr 1
  rw [Bool.eq_iff_iff, isCommentLine_iff hne he hsp]
  simp

theorem mergeSort_stable {β : Type} (le : β → β → Bool) (htrans : ∀ a b c, le a b → le b c → le a c)
    (htotal : ∀ a b, (le a b || le b a) = true) (x : β) (l : List β) :
    (l.mergeSort le).filter (fun y => le x y && le y x) = l.filter (fun y => le x y && le y x) := by
  have hs : List.Sublist (l.filter (fun y => le x y && le y x)) (l.mergeSort le) := by
    apply List.sublist_mergeSort htrans htotal _ List.filter_sublist
    rw [List.pairwise_iff_forall_sublist]
    intro a b hab
    have ha := hab.subset (by simp : a ∈ [a, b])
    have hb := hab.subset (by simp : b ∈ [a, b])
    have ha := (List.mem_filter.1 ha).2
    have hb := (List.mem_filter.1 hb).2
    simp only [Bool.and_eq_true] at ha hb
    exact htrans a x b ha.2 hb.1
  have h2 := hs.filter (fun y => le x y && le y x)
  rw [List.filter_filter] at h2
  simp only [Bool.and_self] at h2
  refine (h2.eq_of_length ?_).symm
  exact (((List.mergeSort_perm l le).filter _).length_eq).symm

/-- C63: lines_sort yields the same pairs, in the order of their keys (`lt` compares them), descending if
`reverse`; pairs with equal keys stay in the order they had, in both cases. -/
theorem C63_lines_sort (li : List (Pair α μ)) (lt : Pair α μ → Pair α μ → Bool) (reverse : Bool)
    (hasymm : ∀ a b, lt a b = true → lt b a = false)
    (hweak : ∀ a b c, lt a c = true → lt a b = true ∨ lt b c = true) :
    ∃ out, Modifier.apply E (li, none) (.sort lt reverse) = (out, none) ∧ out.Perm li ∧
      out.Pairwise (fun a b => if reverse then lt a b = false else lt b a = false) ∧
      ∀ x, out.filter (fun y => !lt x y && !lt y x) = li.filter (fun y => !lt x y && !lt y x) := by
  have htrans : ∀ a b c, (!lt b a) = true → (!lt c b) = true → (!lt c a) = true := by
    intro a b c h1 h2
    simp only [Bool.not_eq_true'] at h1 h2 ⊢
    rw [Bool.eq_false_iff]
    intro h
    rcases hweak c b a h with h' | h'
    · rw [h'] at h2; cases h2
    · rw [h'] at h1; cases h1
  have htotal : ∀ a b, (!lt b a || !lt a b) = true := by
    intro a b
    cases h : lt a b with
    | false => simp
    | true => simp [hasymm a b h]
  refine ⟨_, rfl, ?_, ?_, ?_⟩
  · unfold Lines.sort
    split
    · exact (List.reverse_perm _).trans ((List.mergeSort_perm _ _).trans (List.reverse_perm _))
    · exact List.mergeSort_perm _ _
  · unfold Lines.sort
    cases reverse with
    | false =>
      simp only [Bool.false_eq_true, if_false]
      exact (List.pairwise_mergeSort htrans htotal li).imp (fun h => by simpa using h)
    | true =>
      simp only [if_true]
      rw [List.pairwise_reverse]
      exact (List.pairwise_mergeSort htrans htotal li.reverse).imp (fun h => by simpa using h)
  · intro x
    unfold Lines.sort
    have hcomm : (fun y => !lt x y && !lt y x) = (fun y => !lt y x && !lt x y) := by
      funext y; rw [Bool.and_comm]
    rw [hcomm]
    cases reverse with
    | false =>
      simp only [Bool.false_eq_true, if_false]
      exact mergeSort_stable (fun a b => !lt b a) htrans htotal x li
    | true =>
      simp only [if_true]
      rw [List.filter_reverse, mergeSort_stable (fun a b => !lt b a) htrans htotal x li.reverse,
        List.filter_reverse, List.reverse_reverse]

/-! ### C66 for the whole stream -/

/-- C66: with no quotes given, lines_strip_line_comments yields every line, in order: those with a marker
are cut at the first one, what is cut off going to `trailing`, the others are unchanged. -/
theorem C66_no_quotes (hc : CacheOK E.sq.cache) (hsort : ∀ l w, w ∈ E.sq.sort l ↔ w ∈ l)
    (markers : List (List α)) (escape : List α) (hne : markers ≠ []) (he : [] ∉ markers)
    (li : List (Pair α μ)) (hw : ∀ p ∈ li, Whole p) :
    ∃ out, Modifier.apply E (li, none) (.stripLineComments ⟨markers, [], [], escape⟩) = (out, none) ∧
      Pointwise (fun p q => Same E p q ∧
        ((∃ m y, CutAt markers p.2 q.2 m y ∧
            (q.2 ≠ [] → q.1 = { p.1 with trailing := m ++ y ++ p.1.trailing })) ∨
          NoMarker markers p.2 ∧ q = p)) li out := by
  have hone : ∀ p : Pair α μ, Whole p → ∃ q, commentOne E ⟨markers, [], [], escape⟩ [] p = .ok (q, []) ∧
      Same E p q ∧ ((∃ m y, CutAt markers p.2 q.2 m y ∧
            (q.2 ≠ [] → q.1 = { p.1 with trailing := m ++ y ++ p.1.trailing })) ∨
          NoMarker markers p.2 ∧ q = p) := by
    intro p hp
    have hT : Tuples E ⟨markers, [], [], escape⟩ [] p.2 [([], p.2, [])] := .inl ⟨rfl, rfl, rfl⟩
    rcases C66_line_comment hc hsort ⟨markers, [], [], escape⟩ hne he [] (by simp) p hp _ hT with
      ⟨pre, seg, post, x, m, y, q, h1, -, h2, -, h3, h4, h5, h6⟩ | ⟨h1, h2⟩
    · have hpre : pre = [] := by
        cases pre with
        | nil => rfl
        | cons z pre =>
          have := congrArg List.length h1
          simp at this
      subst hpre
      simp only [List.nil_append, List.cons.injEq, Prod.mk.injEq, true_and, and_true] at h1
      obtain ⟨hseg, hpost⟩ := h1
      subst hseg
      rw [← hpost] at h6
      refine ⟨q, h3, h4, .inl ⟨m, y, ?_, ?_⟩⟩
      · rw [h5]; exact h2
      · intro hq
        rw [h6 hq]
        simp [Big.SQ.rejoin]
    · refine ⟨p, ?_, .refl hp, .inr ⟨h1 0 p.2 [] rfl (.inr rfl), rfl⟩⟩
      have ho : openAfter ([] : List α) [([], p.2, [])] = [] := by simp [openAfter]
      rw [ho, if_pos (.inl rfl)] at h2
      exact h2
  have key : ∀ li : List (Pair α μ), (∀ p ∈ li, Whole p) →
      ∃ out, commentLoop E ⟨markers, [], [], escape⟩ [] li none = (out, none) ∧
      Pointwise (fun p q => Same E p q ∧
        ((∃ m y, CutAt markers p.2 q.2 m y ∧
            (q.2 ≠ [] → q.1 = { p.1 with trailing := m ++ y ++ p.1.trailing })) ∨
          NoMarker markers p.2 ∧ q = p)) li out := by
    intro li
    induction li with
    | nil => intro _; exact ⟨[], rfl, rfl, by simp⟩
    | cons p li ih =>
      intro hw
      obtain ⟨q, h1, h2⟩ := hone p (hw p (by simp))
      obtain ⟨out, h3, h4⟩ := ih (fun p hp => hw p (by simp [hp]))
      refine ⟨q :: out, ?_, by simp [h4.1], ?_⟩
      · unfold commentLoop
        rw [h1]
        simp [h3]
      · intro i p' q' hp' hq'
        cases i with
        | zero =>
          simp only [List.getElem?_cons_zero, Option.some.injEq] at hp' hq'
          subst hp' hq'; exact h2
        | succ i => exact h4.2 i p' q' (by simpa using hp') (by simpa using hq')
  obtain ⟨out, h1, h2⟩ := key li hw
  refine ⟨out, ?_, h2⟩
  simp only [Modifier.apply]
  rw [if_neg (by simpa using hne)]
  exact h1

/-- C66: the state from one line to the next: if no exception is raised, every line is yielded, in order,
each handled as C66_line_comment says, with the quote that the line before it left open; none is open
at the start and at the end. -/
theorem C66_state_is_threaded (a : Comments α) (li : List (Pair α μ)) (out : List (Pair α μ))
    (h : Modifier.apply E (li, none) (.stripLineComments a) = (out, none)) :
    out.length = li.length ∧ ∃ states : List (List α), states.length = li.length + 1 ∧
      states.head? = some [] ∧ states.getLast? = some [] ∧
      ∀ (i : Nat) p st, li[i]? = some p → states[i]? = some st →
        ∃ q st', out[i]? = some q ∧ states[i + 1]? = some st' ∧ commentOne E a st p = .ok (q, st') := by
  have key : ∀ (li : List (Pair α μ)) (st : List α) (out : List (Pair α μ)),
      commentLoop E a st li none = (out, none) →
      out.length = li.length ∧ ∃ states : List (List α), states.length = li.length + 1 ∧
      states.head? = some st ∧ states.getLast? = some [] ∧
      ∀ (i : Nat) p st, li[i]? = some p → states[i]? = some st →
        ∃ q st', out[i]? = some q ∧ states[i + 1]? = some st' ∧ commentOne E a st p = .ok (q, st') := by
    intro li
    induction li with
    | nil =>
      intro st out h
      simp only [commentLoop, Prod.mk.injEq] at h
      have hst : st = [] := by
        by_cases hst : st = []
        · exact hst
        · rw [if_neg (by simpa using hst)] at h; simp at h
      subst hst
      rw [← h.1]
      exact ⟨rfl, [[]], rfl, rfl, rfl, by simp⟩
    | cons p li ih =>
      intro st out h
      unfold commentLoop at h
      cases h1 : commentOne E a st p with
      | error e => rw [h1] at h; simp at h
      | ok r =>
        obtain ⟨q, st'⟩ := r
        rw [h1] at h
        simp only [Prod.mk.injEq] at h
        obtain ⟨g1, states, g2, g3, g4, g5⟩ := ih st' (commentLoop E a st' li none).1 (Prod.ext rfl h.2)
        rw [← h.1]
        refine ⟨by simp [g1], st :: states, by simp [g2], rfl, ?_, ?_⟩
        · rw [List.getLast?_cons, g4]; rfl
        · intro i p' s hp' hs
          cases i with
          | zero =>
            simp only [List.getElem?_cons_zero, Option.some.injEq] at hp' hs
            subst hp' hs
            refine ⟨q, st', rfl, ?_, h1⟩
            rw [List.head?_eq_getElem?] at g3
            simpa using g3
          | succ i =>
            obtain ⟨q', s', k1, k2, k3⟩ := g5 i p' s (by simpa using hp') (by simpa using hs)
            exact ⟨q', s', by simpa using k1, by simpa using k2, k3⟩
  simp only [Modifier.apply] at h
  split at h
  · simp at h
  · split at h
    · simp at h
    · exact key li [] out h

/-! ### examples -/

example : run strEnv "a\n# b\n // c\n  d # e" [.filterLineCommentLines ["#".toList, "//".toList],
    .containing "#".toList true] = ([⟨1, "", "a", "", "\n", 0⟩], none) := by decide +kernel

/-- With a single marker that starts with whitespace no line is a comment line; with a second marker the
same line is one. C63_filter_line_comment_lines needs markers that do not start with whitespace. -/
theorem C63_marker_with_whitespace :
    run strEnv " # b" [.filterLineCommentLines [" #".toList]] = ([⟨1, "", " # b", "", "", 0⟩], none) ∧
    run strEnv " # b" [.filterLineCommentLines [" #".toList, "//".toList]] = ([], none) := by decide +kernel

/-- A quoted string over two lines; the marker in it is no comment. -/
example : run strEnv "a \"b #\n # c\" d # e \" f\ng" [.stripLineComments hash]
    = ([⟨1, "", "a \"b #", "", "\n", 0⟩, ⟨1, "", " # c\" d ", "# e \" f", "\n", 0⟩,
        ⟨1, "", "g", "", "", 0⟩], none) := by decide +kernel

/-- An unterminated quote is an error: at once, or at the end if it is multiline. -/
example : run strEnv "a 'b\nc" [.stripLineComments hash] = ([], some .syntaxError) ∧
    run strEnv "a \"b\nc" [.stripLineComments hash]
      = ([⟨1, "", "a \"b", "", "\n", 0⟩, ⟨1, "", "c", "", "", 0⟩], some .syntaxError) := by decide +kernel

end Big.Lines
