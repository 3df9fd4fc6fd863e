import Verif.Lines.Filters
/-! # C139: chains of lines modifiers yield each line at most once, in order, with what lines_grep stored -/
namespace Big.Lines

variable {α μ β : Type} [DecidableEq α] {E : Env α}

/-! ### what a modifier leaves alone -/

/-- `k` reads nothing that clipping changes. -/
def Steady (k : Info α μ → β) : Prop :=
  ∀ (i : Info α μ) (c : Int) (l t : List α), k { i with columnNumber := c, leading := l, trailing := t } = k i

/-- The modifier changes nothing that `k` reads, but for what clipping changes. -/
def Spares (k : Info α μ → β) : Modifier α μ → Prop
  | .grep _ name _ => ∀ i m, k (setAttr i name m) = k i
  | .stripIndent => ∀ (i : Info α μ) n, k { i with indent := n } = k i
  | _ => True

/-- The modifier is lines_sort. -/
def Modifier.isSort : Modifier α μ → Bool
  | .sort _ _ => true
  | _ => false

/-- The modifier is lines_grep with this attribute. -/
def Modifier.grepsTo (name : String) : Modifier α μ → Bool
  | .grep _ name' _ => name' = name
  | _ => false

omit [DecidableEq α] in
theorem clipAll_k [DecidableEq α] {k : Info α μ → β} (hk : Steady k) {info : Info α μ} {q : Pair α μ} (h : clipAll info = .ok q) :
    k q.1 = k info := by
  unfold clipAll at h
  split at h
  · simp at h
  · simp only [Except.ok.injEq] at h; rw [← h]; exact hk info _ _ _

theorem clipLeading_k {k : Info α μ → β} (hk : Steady k) {info : Info α μ} {line : List α} {i : Int} {s : Option (List α)}
    {q : Pair α μ} (h : clipLeading E info line i s = .ok q) : k q.1 = k info := by
  unfold clipLeading at h
  dsimp only at h
  split at h
  · exact clipAll_k hk h
  · simp only [Except.ok.injEq] at h; rw [← h]; exact hk info _ _ info.trailing

theorem clipTrailing_k {k : Info α μ → β} (hk : Steady k) {info : Info α μ} {line : List α} {i : Int} {s : Option (List α)}
    {q : Pair α μ} (h : clipTrailing info line i s = .ok q) : k q.1 = k info := by
  unfold clipTrailing at h
  dsimp only at h
  split at h
  · exact clipAll_k hk h
  · simp only [Except.ok.injEq] at h; rw [← h]; exact hk info info.columnNumber info.leading _

theorem clipBoth_k {k : Info α μ → β} (hk : Steady k) {p q : Pair α μ} {a b : List α} (h : clipBoth E p a b = .ok (some q)) :
    k q.1 = k p.1 := by
  unfold clipBoth at h
  cases h1 : (if a.isEmpty then .ok p else clipLeading E p.1 p.2 a.length (some a) : Except Err (Pair α μ)) with
  | error e => rw [h1] at h; simp at h
  | ok r =>
    rw [h1] at h
    have hr : k r.1 = k p.1 := by
      split at h1
      · simp only [Except.ok.injEq] at h1; rw [h1]
      · exact clipLeading_k hk h1
    dsimp only at h
    cases h2 : (if b.isEmpty then .ok r else clipTrailing r.1 r.2 b.length (some b) : Except Err (Pair α μ)) with
    | error e => rw [h2] at h; simp [Except.map] at h
    | ok r' =>
      rw [h2] at h
      simp only [Except.map, Except.ok.injEq, Option.some.injEq] at h
      subst h
      split at h2
      · simp only [Except.ok.injEq] at h2; rw [← h2, hr]
      · rw [clipTrailing_k hk h2, hr]

omit [DecidableEq α] in
theorem map_ok {f : Pair α μ → Option (Pair α μ)} {r : Except Err (Pair α μ)} {q : Pair α μ} (h : r.map f = .ok (some q)) :
    ∃ x, r = .ok x ∧ f x = some q := by
  cases r with
  | error e => simp [Except.map] at h
  | ok x => exact ⟨x, rfl, by simpa [Except.map] using h⟩

omit [DecidableEq α] in
theorem each_k {k : Info α μ → β} {f : Pair α μ → Except Err (Option (Pair α μ))}
    (h : ∀ p q, f p = .ok (some q) → k q.1 = k p.1) (e : Option Err) : ∀ li : List (Pair α μ),
    ((each f li e).1.map (fun p => k p.1)).Sublist (li.map (fun p => k p.1))
  | [] => by simp [each]
  | p :: li => by
    have ih := each_k h e li
    unfold each
    cases hf : f p with
    | error e' => simp
    | ok r =>
      cases r with
      | none => exact List.Sublist.cons _ ih
      | some q =>
        simp only [List.map_cons]
        rw [h p q hf]
        exact ih.cons_cons _

theorem commentOne_k {k : Info α μ → β} (hk : Steady k) {a : Comments α} {state state' : List α} {p q : Pair α μ}
    (h : commentOne E a state p = .ok (q, state')) : k q.1 = k p.1 := by
  unfold commentOne at h
  cases h1 : segmentsOf E a state p.2 with
  | error e => rw [h1] at h; simp [bind, Except.bind] at h
  | ok i =>
    rw [h1] at h
    simp only [bind, Except.bind] at h
    cases h2 : scan a.markers p.2 state [] [] i.1 i.2 with
    | error e => rw [h2] at h; simp at h
    | ok r =>
      rw [h2] at h
      cases r with
      | comment st s =>
        dsimp only at h
        cases h3 : clipTrailing p.1 p.2 s.length (some s) with
        | error e => rw [h3] at h; simp at h
        | ok x =>
          rw [h3] at h
          simp only [Except.ok.injEq, Prod.mk.injEq] at h
          rw [← h.1]; exact clipTrailing_k hk h3
      | noComment st lead trail =>
        dsimp only at h
        split at h
        · split at h
          · simp at h
          · simp only [Except.ok.injEq, Prod.mk.injEq] at h; rw [← h.1]
        · simp only [Except.ok.injEq, Prod.mk.injEq] at h; rw [← h.1]

theorem commentLoop_k {k : Info α μ → β} (hk : Steady k) (a : Comments α) (e : Option Err) :
    ∀ (li : List (Pair α μ)) (state : List α),
      ((commentLoop E a state li e).1.map (fun p => k p.1)).Sublist (li.map (fun p => k p.1))
  | [], state => by cases e <;> simp [commentLoop]
  | p :: li, state => by
    unfold commentLoop
    cases h : commentOne E a state p with
    | error e' => simp
    | ok r =>
      obtain ⟨q, state'⟩ := r
      simp only [List.map_cons]
      rw [commentOne_k hk h]
      exact (commentLoop_k hk a e li state').cons_cons _

theorem indentLoop_k {k : Info α μ → β} (hk : Steady k) (hi : ∀ (i : Info α μ) n, k { i with indent := n } = k i)
    (e : Option Err) : ∀ (li : List (Pair α μ)) (leadings : List Int) (blank : List (Pair α μ)),
      ((indentLoop E li e leadings blank).1.map (fun p => k p.1)).Sublist ((blank ++ li).map (fun p => k p.1))
  | [], leadings, blank => by
    have hs : ∀ n, (blank.map (setIndent · n)).map (fun p => k p.1) = blank.map (fun p => k p.1) := by
      intro n
      rw [List.map_map]
      apply List.map_congr_left
      intro p _
      exact hi p.1 n
    cases e with
    | none => simp only [indentLoop, List.append_nil]; rw [hs]; exact List.Sublist.refl _
    | some e => simp [indentLoop]
  | p :: li, leadings, blank => by
    have hs : ∀ n, (blank.map (setIndent · n)).map (fun p => k p.1) = blank.map (fun p => k p.1) := by
      intro n
      rw [List.map_map]
      apply List.map_congr_left
      intro p _
      exact hi p.1 n
    unfold indentLoop
    dsimp only
    split
    · cases h : clipTrailing p.1 p.2 p.2.length (some p.2) with
      | error e' => simp
      | ok q =>
        have := indentLoop_k hk hi e li leadings (blank ++ [q])
        dsimp only
        simp only [List.map_append, List.map_cons, List.map_nil, List.append_assoc, List.singleton_append] at this ⊢
        rw [clipTrailing_k hk h] at this
        exact this
    · cases h : clipLeading E p.1 p.2 (p.2.length - (lstrip E p.2).length) none with
      | error e' => simp
      | ok q =>
        dsimp only
        cases h2 : indentStep E q.1 leadings with
        | error e' => simp
        | ok leadings' =>
          have := indentLoop_k hk hi e li leadings' []
          dsimp only
          rw [List.map_append, hs, List.map_append, List.map_cons, List.map_cons]
          refine List.Sublist.append (List.Sublist.refl _) ?_
          have hq : k (setIndent q leadings'.length).1 = k p.1 := by
            rw [← clipLeading_k hk h]; exact hi q.1 _
          rw [hq]
          exact this.cons_cons _

/-- A modifier other than lines_sort yields some of the lines, in order, and what `k` reads in them is as it was. -/
theorem apply_k {k : Info α μ → β} (hk : Steady k) {m : Modifier α μ} (hs : m.isSort = false) (hm : Spares k m)
    (li : Stream α μ) : ((Modifier.apply E li m).1.map (fun p => k p.1)).Sublist (li.1.map (fun p => k p.1)) := by
  cases m with
  | rstrip seps =>
    cases seps with
    | none =>
      refine each_k ?_ _ _
      intro p q h
      unfold rstripOne at h
      dsimp only at h
      split at h
      · obtain ⟨x, h1, h2⟩ := map_ok h
        simp only [Option.some.injEq] at h2; subst h2
        exact clipTrailing_k hk h1
      · simp only [Except.ok.injEq, Option.some.injEq] at h; rw [← h]
    | some seps =>
      refine each_k ?_ _ _
      intro p q h
      unfold rstripSepsOne at h
      split at h
      · simp at h
      · split at h
        · obtain ⟨x, h1, h2⟩ := map_ok h
          simp only [Option.some.injEq] at h2; subst h2
          exact clipTrailing_k (q := x) hk h1
        · simp only [Except.ok.injEq, Option.some.injEq] at h; rw [← h]
  | strip seps =>
    cases seps with
    | none =>
      refine each_k ?_ _ _
      intro p q h
      unfold stripOne at h
      dsimp only at h
      split at h
      · simp only [Except.ok.injEq, Option.some.injEq] at h; rw [← h]
      · split at h
        · exact clipBoth_k hk h
        · exact clipBoth_k hk h
    | some seps =>
      refine each_k ?_ _ _
      intro p q h
      unfold stripSepsOne at h
      split at h
      · simp only [Except.ok.injEq, Option.some.injEq] at h; rw [← h]
      · split at h
        · simp at h
        · split at h
          · exact clipBoth_k hk h
          · exact clipBoth_k hk h
  | filterLineCommentLines markers =>
    simp only [Modifier.apply]
    split
    · simp
    · refine each_k ?_ _ _
      intro p q h
      unfold filterOne at h
      simp only [Except.ok.injEq] at h
      split at h
      · simp only [Option.some.injEq] at h; rw [← h]
      · simp at h
  | containing s invert =>
    refine each_k ?_ _ _
    intro p q h
    unfold filterOne at h
    simp only [Except.ok.injEq] at h
    split at h
    · simp only [Option.some.injEq] at h; rw [← h]
    · simp at h
  | filterEmptyLines =>
    refine each_k ?_ _ _
    intro p q h
    unfold filterOne at h
    simp only [Except.ok.injEq] at h
    split at h
    · simp only [Option.some.injEq] at h; rw [← h]
    · simp at h
  | grep search name invert =>
    refine each_k ?_ _ _
    intro p q h
    unfold grepOne at h
    cases hsr : search p.2 <;> rw [hsr] at h <;> cases invert <;> simp at h <;> rw [← h] <;> exact hm _ _
  | sort lt reverse => simp [Modifier.isSort] at hs
  | stripLineComments a =>
    simp only [Modifier.apply]
    split
    · simp
    · split
      · simp
      · exact commentLoop_k hk a _ _ _
  | convertTabsToSpaces =>
    refine each_k ?_ _ _
    intro p q h
    unfold tabsOne at h
    simp only [Except.ok.injEq, Option.some.injEq] at h; rw [← h]
  | stripIndent =>
    have := indentLoop_k (E := E) hk hm li.2 li.1 [] []
    simpa [Modifier.apply] using this

theorem sort_perm (lt : Pair α μ → Pair α μ → Bool) (reverse : Bool) (l : List (Pair α μ)) : (Lines.sort lt reverse l).Perm l := by
  unfold Lines.sort
  dsimp only
  split
  · exact (List.reverse_perm _).trans ((List.mergeSort_perm _ _).trans (List.reverse_perm _))
  · exact List.mergeSort_perm _ _

/-- With lines_sort, in some order. -/
theorem apply_k_perm {k : Info α μ → β} (hk : Steady k) {m : Modifier α μ} (hm : Spares k m) (li : Stream α μ) :
    ∃ l, ((Modifier.apply E li m).1.map (fun p => k p.1)).Perm l ∧ l.Sublist (li.1.map (fun p => k p.1)) := by
  cases hs : m.isSort with
  | false => exact ⟨_, .refl _, apply_k hk hs hm li⟩
  | true =>
    cases m with
    | sort lt reverse =>
      simp only [Modifier.apply]
      cases li.2 with
      | some e => exact ⟨[], by simp, by simp⟩
      | none => exact ⟨_, (sort_perm lt reverse li.1).map _, List.Sublist.refl _⟩
    | _ => simp [Modifier.isSort] at hs

theorem chain_k {k : Info α μ → β} (hk : Steady k) : ∀ (ms : List (Modifier α μ)), (∀ m ∈ ms, m.isSort = false ∧ Spares k m) →
    ∀ li : Stream α μ, ((chain E li ms).1.map (fun p => k p.1)).Sublist (li.1.map (fun p => k p.1))
  | [], _, li => List.Sublist.refl _
  | m :: ms, h, li => by
    have h1 := apply_k (E := E) hk (h m (by simp)).1 (h m (by simp)).2 li
    have h2 := chain_k hk ms (fun m' hm' => h m' (by simp [hm'])) (Modifier.apply E li m)
    exact h2.trans h1

theorem chain_k_perm {k : Info α μ → β} (hk : Steady k) : ∀ (ms : List (Modifier α μ)), (∀ m ∈ ms, Spares k m) →
    ∀ li : Stream α μ, ∃ l, ((chain E li ms).1.map (fun p => k p.1)).Perm l ∧ l.Sublist (li.1.map (fun p => k p.1))
  | [], _, li => ⟨_, .refl _, List.Sublist.refl _⟩
  | m :: ms, h, li => by
    obtain ⟨l1, p1, s1⟩ := apply_k_perm (E := E) hk (h m (by simp)) li
    obtain ⟨l2, p2, s2⟩ := chain_k_perm hk ms (fun m' hm' => h m' (by simp [hm'])) (Modifier.apply E li m)
    obtain ⟨l3, p3, s3⟩ := List.exists_perm_sublist s2 p1
    exact ⟨l3, p2.trans p3.symm, s3.trans s1⟩

/-! ### C139 -/

/-- The lines of `lines` are numbered without gaps. -/
theorem number_numbers (n : Int) : ∀ l : List (List α × List α),
    ((number (μ := μ) E n l).map (fun p => p.1.lineNumber)).Pairwise (· < ·) ∧
      ∀ x ∈ (number (μ := μ) E n l).map (fun p => p.1.lineNumber), n ≤ x := by
  intro l
  induction l generalizing n with
  | nil => simp [number]
  | cons p l ih =>
    obtain ⟨h1, h2⟩ := ih (n + 1)
    simp only [number, List.map_cons, List.pairwise_cons, List.mem_cons]
    refine ⟨⟨?_, h1⟩, ?_⟩
    · intro x hx; have := h2 x hx; omega
    · rintro x (rfl | hx)
      · exact Int.le_refl _
      · have := h2 x hx; omega

theorem lines_numbers (n : Int) (src : Source α) :
    ((lines (μ := μ) E n src).1.map (fun p => p.1.lineNumber)).Pairwise (· < ·) := by
  cases src with
  | text s seps =>
    simp only [lines]
    split
    · simp
    · exact (number_numbers n _).1
  | strings l => exact (number_numbers n _).1
  | pairs l => exact (number_numbers n _).1

theorem steady_number : Steady (fun i : Info α μ => i.lineNumber) := fun _ _ _ _ => rfl

omit [DecidableEq α] in
theorem spares_number (m : Modifier α μ) : Spares (fun i : Info α μ => i.lineNumber) m := by
  cases m <;> first | trivial | exact fun _ _ => rfl

/-- C139: whatever the modifiers, in whatever order, if lines_sort is not among them, the lines come in their original
order, each once at most: line numbers increase. -/
theorem C139_in_order (n : Int) (src : Source α) (ms : List (Modifier α μ)) (h : ∀ m ∈ ms, m.isSort = false) :
    ((chain E (lines E n src) ms).1.map (fun p => p.1.lineNumber)).Pairwise (· < ·) :=
  (lines_numbers n src).sublist (chain_k steady_number ms (fun m hm => ⟨h m hm, spares_number m⟩) _)

/-- C139: with lines_sort too no line is yielded twice. -/
theorem C139_none_twice (n : Int) (src : Source α) (ms : List (Modifier α μ)) :
    ((chain E (lines E n src) ms).1.map (fun p => p.1.lineNumber)).Nodup := by
  obtain ⟨l, h1, h2⟩ := chain_k_perm (E := E) steady_number ms (fun m _ => spares_number m) (lines E n src)
  refine h1.nodup_iff.2 ((List.Pairwise.imp ?_ (lines_numbers n src)).sublist h2)
  intro a b hab
  exact Int.ne_of_lt hab

omit [DecidableEq α] in
theorem lookup_setAttr {name name' : String} (h : ¬ name' = name) (i : Info α μ) (m : Option μ) :
    (setAttr i name' m).attrs.lookup name = i.attrs.lookup name := by
  unfold setAttr
  rw [List.lookup_cons]
  have : (name == name') = false := by simpa using fun e => h e.symm
  rw [this]

omit [DecidableEq α] in
theorem spares_attr {name : String} {m : Modifier α μ} (h : m.grepsTo name = false) :
    Spares (fun i : Info α μ => (i.lineNumber, i.attrs.lookup name)) m := by
  cases m with
  | grep search name' invert =>
    intro i m
    dsimp only
    rw [lookup_setAttr (by simpa [Modifier.grepsTo] using h)]
    rfl
  | stripIndent => exact fun _ _ => rfl
  | _ => trivial

/-- C139: what lines_grep stored in a LineInfo stays there, whatever modifiers follow, until another lines_grep stores
something in the same attribute: it is the match in the line as it was when lines_grep saw it, or None with
`invert`. -/
theorem C139_match_stays (n : Int) (src : Source α) (before : List (Modifier α μ)) (search : List α → Option μ)
    (name : String) (invert : Bool) (after : List (Modifier α μ)) (ha : ∀ m ∈ after, m.grepsTo name = false) :
    ∀ q ∈ (chain E (lines E n src) (before ++ .grep search name invert :: after)).1,
      ∃ p ∈ (chain E (lines E n src) before).1, p.1.lineNumber = q.1.lineNumber ∧
        (search p.2).isSome = !invert ∧ q.1.attrs.lookup name = some (search p.2) := by
  intro q hq
  have hc : chain E (lines E n src) (before ++ .grep search name invert :: after) =
      chain E (Modifier.apply E (chain E (lines E n src) before) (.grep search name invert)) after := by
    unfold chain; rw [List.foldl_append]; rfl
  rw [hc] at hq
  have hst : Steady (fun i : Info α μ => (i.lineNumber, i.attrs.lookup name)) := fun _ _ _ _ => rfl
  obtain ⟨l, h1, h2⟩ := chain_k_perm (E := E) hst after (fun m hm => spares_attr (ha m hm))
    (Modifier.apply E (chain E (lines E n src) before) (.grep search name invert))
  have hmem := h2.subset (h1.mem_iff.1 (List.mem_map.2 ⟨q, hq, rfl⟩))
  obtain ⟨r, hr, hrq⟩ := List.mem_map.1 hmem
  simp only [Prod.mk.injEq] at hrq
  simp only [Modifier.apply] at hr
  rw [each_grep] at hr
  obtain ⟨p, hp, rfl⟩ := List.mem_map.1 hr
  obtain ⟨hp1, hp2⟩ := List.mem_filter.1 hp
  refine ⟨p, hp1, hrq.1, ?_, ?_⟩
  · cases h : (search p.2).isSome <;> cases invert <;> simp [h] at hp2 ⊢
  · rw [← hrq.2]; simp [setAttr]

/-- C139: an attribute that no lines_grep of the chain stores to is not set. -/
theorem C139_no_match (n : Int) (src : Source α) (name : String) (ms : List (Modifier α μ))
    (h : ∀ m ∈ ms, m.grepsTo name = false) :
    ∀ q ∈ (chain E (lines E n src) ms).1, q.1.attrs.lookup name = none := by
  intro q hq
  have hst : Steady (fun i : Info α μ => (i.lineNumber, i.attrs.lookup name)) := fun _ _ _ _ => rfl
  obtain ⟨l, h1, h2⟩ := chain_k_perm (E := E) hst ms (fun m hm => spares_attr (h m hm)) (lines E n src)
  obtain ⟨r, hr, hrq⟩ := List.mem_map.1 (h2.subset (h1.mem_iff.1 (List.mem_map.2 ⟨q, hq, rfl⟩)))
  simp only [Prod.mk.injEq] at hrq
  rw [← hrq.2]
  have key : ∀ (l : List (List α × List α)) (n : Int), r ∈ number (μ := μ) E n l → r.1.attrs = [] := by
    intro l
    induction l with
    | nil => intro n h; simp [number] at h
    | cons p l ih =>
      intro n h
      simp only [number, List.mem_cons] at h
      rcases h with rfl | h
      · rfl
      · exact ih _ h
  have hat : r.1.attrs = [] := by
    cases src with
    | text s seps =>
      simp only [lines] at hr
      split at hr
      · simp at hr
      · exact key _ _ hr
    | strings l => exact key _ _ hr
    | pairs l => exact key _ _ hr
  rw [hat]; rfl

/-- C139: without lines_strip_indent every indent is 0. -/
theorem C139_indent (n : Int) (src : Source α) (ms : List (Modifier α μ)) (h : ∀ m ∈ ms, m ≠ .stripIndent) :
    ∀ q ∈ (chain E (lines E n src) ms).1, q.1.indent = 0 := by
  intro q hq
  have hst : Steady (fun i : Info α μ => i.indent) := fun _ _ _ _ => rfl
  have hsp : ∀ m ∈ ms, Spares (fun i : Info α μ => i.indent) m := by
    intro m hm
    cases m with
    | stripIndent => exact absurd rfl (h _ hm)
    | grep _ _ _ => exact fun _ _ => rfl
    | _ => trivial
  obtain ⟨l, h1, h2⟩ := chain_k_perm (E := E) hst ms hsp (lines E n src)
  obtain ⟨r, hr, hrq⟩ := List.mem_map.1 (h2.subset (h1.mem_iff.1 (List.mem_map.2 ⟨q, hq, rfl⟩)))
  rw [← hrq]
  have key : ∀ (l : List (List α × List α)) (n : Int), r ∈ number (μ := μ) E n l → r.1.indent = 0 := by
    intro l
    induction l with
    | nil => intro n h; simp [number] at h
    | cons p l ih =>
      intro n h
      simp only [number, List.mem_cons] at h
      rcases h with rfl | h
      · rfl
      · exact ih _ h
  cases src with
  | text s seps =>
    simp only [lines] at hr
    split at hr
    · simp at hr
    · exact key _ _ hr
  | strings l => exact key _ _ hr
  | pairs l => exact key _ _ hr

/-! ### examples -/

/-- A chain with lines_strip, two lines_grep, lines_filter_empty_lines and lines_rstrip: line numbers, lines and what the two
patterns ("the position of b", "the length") stored. -/
example : ((chain strEnv (lines (μ := Nat) strEnv 1 (.text " ab \n\nc\nbb \n".toList none))
      [.strip none, .grep (fun l => l.findIdx? (· = 'b')) "b" false, .filterEmptyLines, .grep (fun l => some l.length) "n" false,
        .rstrip none]).1.map
      (fun p => ((p.1.lineNumber, String.ofList p.2), (["b", "n", "x"].map (p.1.attrs.lookup ·))))) =
    [((1, "ab"), [some (some 1), some (some 2), none]), ((4, "bb"), [some (some 0), some (some 2), none])] := by decide +kernel

end Big.Lines
