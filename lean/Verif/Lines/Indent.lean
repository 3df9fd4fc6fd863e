import Verif.Lines.Strip
/-!
# C51: lines_strip_indent
-/
namespace Big.Lines

variable {α μ : Type} [DecidableEq α] {E : Env α}

/-! ### specification -/

/-- The line is empty or only whitespace. -/
def Blank (E : Env α) (p : Pair α μ) : Prop := ∀ c ∈ p.2, E.isSpace c = true

instance (p : Pair α μ) : Decidable (Blank E p) := inferInstanceAs (Decidable (∀ c ∈ p.2, E.isSpace c = true))

/-- The column of the first character of the line that is not whitespace. -/
def startColumn (E : Env α) (p : Pair α μ) : Int :=
  p.1.columnNumber + (detab E (p.2.takeWhile E.isSpace)).length

/-- The columns of the lines that are not blank. -/
def columns (E : Env α) (li : List (Pair α μ)) : List Int :=
  (li.filter (fun p => !decide (Blank E p))).map (startColumn E)

/-- `v` is an indentation level that is open after lines at columns `cols`: a line started at `v`, to the
right of the first column, and no line since started to the left of `v`. -/
def Enclosing (first : Int) (cols : List Int) (v : Int) : Prop :=
  first < v ∧ ∃ a b, cols = a ++ v :: b ∧ ∀ c ∈ b, v ≤ c

/-- There are exactly `n` such levels. -/
def Levels (first : Int) (cols : List Int) (n : Int) : Prop :=
  ∃ levels : List Int, levels.Nodup ∧ (∀ v, v ∈ levels ↔ Enclosing first cols v) ∧ n = levels.length

/-- After lines at columns `cols`, the next may start at column `c`: at the first column, or no level is to
the right of `c`, or `c` is a level and exactly one level is to the right of it. -/
def Accepted (first : Int) (cols : List Int) (c : Int) : Prop :=
  c = first ∨ (∀ v, Enclosing first cols v → v ≤ c) ∨
  (Enclosing first cols c ∧ ∃ v0, Enclosing first cols v0 ∧ c < v0 ∧ ∀ v, Enclosing first cols v → v ≤ c ∨ v = v0)

/-! ### proof -/

theorem enclosing_snoc (first : Int) (cols : List Int) (c v : Int) :
    Enclosing first (cols ++ [c]) v ↔ first < v ∧ (v = c ∨ (Enclosing first cols v ∧ v ≤ c)) := by
  constructor
  · rintro ⟨h1, a, b, h2, h3⟩
    refine ⟨h1, ?_⟩
    rcases List.eq_nil_or_concat b with rfl | ⟨b', x, rfl⟩
    · left
      have := (List.append_inj' h2 rfl).2
      simp at this; exact this.symm
    · right
      have h2' : cols ++ [c] = (a ++ v :: b') ++ [x] := by rw [h2]; simp
      have h4 := List.append_inj' h2' rfl
      have hx : c = x := by simpa using h4.2
      refine ⟨⟨h1, a, b', h4.1, fun y hy => h3 y (by simp [hy])⟩, ?_⟩
      rw [hx]; exact h3 x (by simp)
  · rintro ⟨h1, rfl | ⟨⟨-, a, b, h2, h3⟩, h4⟩⟩
    · exact ⟨h1, cols, [], rfl, by simp⟩
    · refine ⟨h1, a, b ++ [c], by rw [h2]; simp, ?_⟩
      intro y hy
      rcases List.mem_append.1 hy with hy | hy
      · exact h3 y hy
      · rw [List.mem_singleton.1 hy]; exact h4

/-- The stack of open indents, innermost first, holds the enclosing levels. -/
def StackOK (first : Int) (cols stack : List Int) : Prop :=
  stack.Pairwise (· > ·) ∧ ∀ v, v ∈ stack ↔ Enclosing first cols v

theorem dedent_of_sorted {c l : Int} {rest : List Int} (h : (l :: rest).Pairwise (· > ·)) :
    dedent c (l :: rest) = if l = c then l :: rest else [] := by
  unfold dedent
  by_cases h1 : l ≥ c
  · rw [if_pos h1]
    by_cases h2 : l > c
    · rw [if_pos h2, if_neg (by omega)]
    · rw [if_neg h2, if_pos (by omega)]
  · rw [if_neg h1, if_neg (by omega)]
    have hlt : ∀ x ∈ rest, x < c := by
      intro x hx
      have := (List.pairwise_cons.1 h).1 x hx
      omega
    clear h
    induction rest with
    | nil => rfl
    | cons x rest ih =>
      unfold dedent
      rw [if_neg (by have := hlt x (by simp); omega)]
      exact ih (fun y hy => hlt y (by simp [hy]))

omit [DecidableEq α] in
theorem indentStep_spec {info : Info α μ} {cols stack : List Int} (hs : StackOK E.column cols stack)
    (hge : E.column ≤ info.columnNumber) (hlead : info.columnNumber = E.column → info.leading = []) :
    (Accepted E.column cols info.columnNumber ∧
      ∃ stack', indentStep E info stack = .ok stack' ∧ StackOK E.column (cols ++ [info.columnNumber]) stack') ∨
    (¬ Accepted E.column cols info.columnNumber ∧ indentStep E info stack = .error .indentationError) := by
  unfold indentStep
  dsimp only
  generalize hc : info.columnNumber = c at *
  by_cases h0 : c = E.column
  · left
    rw [if_pos h0]
    refine ⟨.inl h0, [], ?_, .nil, ?_⟩
    · rw [hlead h0]; rfl
    · intro v
      rw [enclosing_snoc]
      constructor
      · simp
      · rintro ⟨h1, h2 | ⟨-, h2⟩⟩ <;> omega
  rw [if_neg h0]
  have hfirst : E.column < c := by omega
  have htop : ∀ {l rest}, stack = l :: rest → ∀ v, Enclosing E.column cols v → v ≤ l := by
    intro l rest h v hv
    have := (hs.2 v).2 hv
    rw [h] at this
    rcases List.mem_cons.1 this with h' | h'
    · omega
    · have := hs.1; rw [h] at this
      have := (List.pairwise_cons.1 this).1 v h'
      omega
  match hst : stack with
  | [] =>
    left
    have hno : ∀ v, ¬ Enclosing E.column cols v := fun v hv => by have := (hs.2 v).2 hv; simp at this
    refine ⟨.inr (.inl (fun v hv => absurd hv (hno v))), [c], rfl, by simp, ?_⟩
    intro v
    rw [enclosing_snoc, List.mem_singleton]
    constructor
    · intro h; exact ⟨by omega, .inl h⟩
    · rintro ⟨-, h | ⟨h, -⟩⟩
      · exact h
      · exact absurd h (hno v)
  | l :: rest =>
    dsimp only
    have hl : Enclosing E.column cols l := (hs.2 l).1 (by simp)
    have hsort := List.pairwise_cons.1 hs.1
    by_cases h1 : l = c
    · left
      rw [if_pos h1]
      refine ⟨.inr (.inl (fun v hv => h1 ▸ htop rfl v hv)), _, rfl, hs.1, ?_⟩
      intro v
      rw [enclosing_snoc]
      constructor
      · intro hv
        have := (hs.2 v).1 hv
        exact ⟨this.1, .inr ⟨this, h1 ▸ htop rfl v this⟩⟩
      · rintro ⟨-, h | ⟨h, -⟩⟩
        · rw [h, ← h1]; simp
        · exact (hs.2 v).2 h
    rw [if_neg h1]
    by_cases h2 : c > l
    · left
      rw [if_pos h2]
      refine ⟨.inr (.inl (fun v hv => ?_)), _, rfl, ?_, ?_⟩
      · have := htop rfl v hv; omega
      · rw [List.pairwise_cons]
        refine ⟨fun v hv => ?_, hs.1⟩
        have := htop rfl v ((hs.2 v).1 hv); omega
      · intro v
        rw [enclosing_snoc, List.mem_cons]
        constructor
        · rintro (h | h)
          · exact ⟨by omega, .inl h⟩
          · have := (hs.2 v).1 h
            exact ⟨this.1, .inr ⟨this, by have := htop rfl v this; omega⟩⟩
        · rintro ⟨-, h | ⟨h, -⟩⟩
          · exact .inl h
          · exact .inr ((hs.2 v).2 h)
    rw [if_neg h2]
    have hnot : ¬ ∀ v, Enclosing E.column cols v → v ≤ c := fun h => by have := h l hl; omega
    match hr : rest with
    | [] =>
      right
      refine ⟨?_, rfl⟩
      rintro (h | h | ⟨h, -⟩)
      · exact h0 h
      · exact hnot h
      · have := (hs.2 c).2 h
        simp at this; exact h1 this.symm
    | l2 :: rest2 =>
      rw [dedent_of_sorted hsort.2]
      have hl2 : Enclosing E.column cols l2 := (hs.2 l2).1 (by simp)
      have hsort2 := List.pairwise_cons.1 hsort.2
      have hll2 := hsort.1 l2 (by simp)
      by_cases h3 : l2 = c
      · left
        rw [if_pos h3]
        refine ⟨.inr (.inr ⟨h3 ▸ hl2, l, hl, by omega, ?_⟩), _, rfl, hsort.2, ?_⟩
        · intro v hv
          have := (hs.2 v).2 hv
          rcases List.mem_cons.1 this with h | h
          · exact .inr h
          · left
            rcases List.mem_cons.1 h with h | h
            · omega
            · have := hsort2.1 v h; omega
        · intro v
          rw [enclosing_snoc]
          constructor
          · intro hv
            have hv' := (hs.2 v).1 (by simp only [List.mem_cons] at hv ⊢; exact .inr hv)
            refine ⟨hv'.1, .inr ⟨hv', ?_⟩⟩
            rcases List.mem_cons.1 hv with h | h
            · omega
            · have := hsort2.1 v h; omega
          · rintro ⟨-, h | ⟨h, h'⟩⟩
            · rw [h, ← h3]; simp
            · have := (hs.2 v).2 h
              rcases List.mem_cons.1 this with h'' | h''
              · omega
              · exact h''
      · right
        rw [if_neg h3]
        refine ⟨?_, rfl⟩
        rintro (h | h | ⟨h, v0, g1, g2, g3⟩)
        · exact h0 h
        · exact hnot h
        · have hmem := (hs.2 c).2 h
          have hin : c ∈ rest2 := by
            rcases List.mem_cons.1 hmem with h' | h'
            · exact absurd h'.symm h1
            · rcases List.mem_cons.1 h' with h'' | h''
              · exact absurd h''.symm h3
              · exact h''
          have := hsort2.1 c hin
          have e1 := g3 l hl
          have e2 := g3 l2 hl2
          omega

theorem blank_iff (p : Pair α μ) : Blank E p ↔ lstrip E p.2 = [] := by
  unfold Blank lstrip
  constructor
  · intro h
    generalize p.2 = l at h
    induction l with
    | nil => rfl
    | cons c l ih =>
      rw [List.dropWhile_cons, if_pos (h c (by simp))]
      exact ih (fun c' hc' => h c' (by simp [hc']))
  · intro h
    have h' := @List.takeWhile_append_dropWhile _ E.isSpace p.2
    rw [h, List.append_nil] at h'
    intro c hc
    rw [← h'] at hc
    exact List.all_eq_true.1 List.all_takeWhile c hc

/-- What clipping the leading whitespace does to column_number. -/
theorem clipLead_column (p : Pair α μ) (hw : Whole p) (hb : ¬ Blank E p) :
    ∃ q, clipLeading E p.1 p.2 (p.2.length - (lstrip E p.2).length) none = .ok q ∧ Same E p q ∧
      q.2 = lstrip E p.2 ∧ q.1.columnNumber = startColumn E p := by
  obtain ⟨q, h1, h2, h3⟩ := clipLead_spec (E := E) p hw
  refine ⟨q, h1, h2, h3, ?_⟩
  have hne : lstrip E p.2 ≠ [] := fun h => hb ((blank_iff p).2 h)
  have ha : p.2 = p.2.takeWhile E.isSpace ++ lstrip E p.2 := List.takeWhile_append_dropWhile.symm
  have hlen : ((p.2.length : Int) - (lstrip E p.2).length) = (p.2.takeWhile E.isSpace).length := by
    have := congrArg List.length ha
    rw [List.length_append] at this; omega
  rw [hlen] at h1
  unfold startColumn
  generalize p.2.takeWhile E.isSpace = a at *
  generalize lstrip E p.2 = b at *
  unfold clipLeading at h1
  have g1 : sliceFrom p.2 a.length = b := by rw [ha]; unfold sliceFrom; rw [if_pos (by omega)]; simp
  have g2 : sliceTo p.2 a.length = a := by rw [ha]; unfold sliceTo; rw [if_pos (by omega)]; simp
  dsimp only at h1
  rw [g1, g2, if_neg (by simpa using hne)] at h1
  simp only [Option.getD_none, Except.ok.injEq] at h1
  rw [← h1]

/-- The indent of the first line of `li` that is not blank, read off `out`. -/
def nextIndent (E : Env α) : List (Pair α μ) → List (Pair α μ) → Int
  | p :: li, q :: out => if Blank E p then nextIndent E li out else q.1.indent
  | _, _ => 0

/-- The blank lines waiting only matter for the output. -/
theorem indentLoop_blank : ∀ (li : List (Pair α μ)) (e : Option Err) (ls : List Int) (blank : List (Pair α μ)),
    AllWhole li →
    (indentLoop E li e ls blank).2 = (indentLoop E li e ls []).2 ∧
    ((indentLoop E li e ls []).2 = none → (indentLoop E li e ls blank).1
      = blank.map (setIndent · (nextIndent E li (indentLoop E li e ls []).1)) ++ (indentLoop E li e ls []).1)
  | [], none, ls, blank, _ => by simp [indentLoop, nextIndent]
  | [], some e, ls, blank, _ => by simp [indentLoop]
  | p :: rest, e, ls, blank, hw => by
    have hw' : AllWhole rest := fun q hq => hw q (by simp [hq])
    by_cases hb : Blank E p
    · have hb' := (blank_iff p).1 hb
      obtain ⟨q, h1, h2, -⟩ := clipBlank_spec (E := E) p (hw p (by simp))
      have hstep : ∀ bl, indentLoop E (p :: rest) e ls bl = indentLoop E rest e ls (bl ++ [q]) := by
        intro bl
        conv => lhs; unfold indentLoop
        dsimp only
        rw [if_pos (by simp [hb']), h1]
      have i1 := indentLoop_blank rest e ls (blank ++ [q]) hw'
      have i2 := indentLoop_blank rest e ls ([] ++ [q]) hw'
      rw [hstep, hstep]
      refine ⟨by rw [i1.1, i2.1], fun hn => ?_⟩
      rw [i2.1] at hn
      rw [i1.2 hn, i2.2 hn]
      simp [nextIndent, hb]
    · obtain ⟨q, h1, h2, -⟩ := clipLead_spec (E := E) p (hw p (by simp))
      have hb' : lstrip E p.2 ≠ [] := fun h => hb ((blank_iff p).2 h)
      cases hst : indentStep E q.1 ls with
      | error e' =>
        have hstep : ∀ bl, indentLoop E (p :: rest) e ls bl = ([], some e') := by
          intro bl
          conv => lhs; unfold indentLoop
          dsimp only
          rw [if_neg (by simpa using hb'), h1]
          dsimp only
          rw [hst]
        rw [hstep, hstep]
        simp
      | ok ls' =>
        have hstep : ∀ bl, indentLoop E (p :: rest) e ls bl
            = (bl.map (setIndent · (ls'.length : Int)) ++ setIndent q (ls'.length : Int)
                :: (indentLoop E rest e ls' []).1, (indentLoop E rest e ls' []).2) := by
          intro bl
          conv => lhs; unfold indentLoop
          dsimp only
          rw [if_neg (by simpa using hb'), h1]
          dsimp only
          rw [hst]
        rw [hstep, hstep]
        simp only [List.map_nil, List.nil_append, true_and]
        intro _
        rw [nextIndent, if_neg hb]
        rfl

theorem columns_snoc (pre : List (Pair α μ)) (p : Pair α μ) :
    columns E (pre ++ [p]) = if Blank E p then columns E pre else columns E pre ++ [startColumn E p] := by
  unfold columns
  rw [List.filter_append, List.map_append]
  by_cases h : Blank E p <;> simp [h]

/-- The lines yielded, when no exception is raised. -/
theorem indentLoop_spec (ht : E.tabWidth > 0) : ∀ (li pre : List (Pair α μ)) (ls : List Int),
    AllWhole li → (∀ p ∈ li, Column E p) → StackOK E.column (columns E pre) ls →
    (indentLoop E li none ls []).2 = none →
    (indentLoop E li none ls []).1.length = li.length ∧
    (∀ (i : Nat) p q, li[i]? = some p → (indentLoop E li none ls []).1[i]? = some q →
      Same E p q ∧
      (if Blank E p then q.2 = [] ∧ q.1.indent = nextIndent E (li.drop i) ((indentLoop E li none ls []).1.drop i)
       else q.2 = lstrip E p.2 ∧ q.1.columnNumber = startColumn E p ∧
         Levels E.column (columns E (pre ++ li.take (i + 1))) q.1.indent)) ∧
    (∀ i p, li[i]? = some p → ¬ Blank E p →
      Accepted E.column (columns E (pre ++ li.take i)) (startColumn E p))
  | [], pre, ls, _, _, _, _ => by simp [indentLoop]
  | p :: rest, pre, ls, hw, hcol, hs, hnone => by
    have hw' : AllWhole rest := fun q hq => hw q (by simp [hq])
    have hcol' : ∀ p ∈ rest, Column E p := fun q hq => hcol q (by simp [hq])
    by_cases hb : Blank E p
    · have hb' := (blank_iff p).1 hb
      obtain ⟨q, h1, h2, h3⟩ := clipBlank_spec (E := E) p (hw p (by simp))
      have hstep : indentLoop E (p :: rest) none ls [] = indentLoop E rest none ls ([] ++ [q]) := by
        conv => lhs; unfold indentLoop
        dsimp only
        rw [if_pos (by simp [hb']), h1]
      have i2 := indentLoop_blank (E := E) rest none ls ([] ++ [q]) hw'
      rw [hstep] at hnone
      rw [i2.1] at hnone
      rw [hstep, i2.2 hnone]
      have ih := indentLoop_spec ht rest (pre ++ [p]) ls hw' hcol'
        (by rw [columns_snoc, if_pos hb]; exact hs) hnone
      generalize (indentLoop E rest none ls []).1 = out at ih ⊢
      simp only [List.nil_append, List.map_cons, List.map_nil, List.cons_append]
      refine ⟨by simp [ih.1], ?_, ?_⟩
      · intro i p' q' hp' hq'
        cases i with
        | zero =>
          simp only [List.getElem?_cons_zero, Option.some.injEq] at hp' hq'
          subst hp' hq'
          refine ⟨setIndent_same _ h2, ?_⟩
          rw [if_pos hb]
          refine ⟨h3, ?_⟩
          simp only [List.drop_zero, nextIndent, if_pos hb]
          rfl
        | succ i =>
          have := ih.2.1 i p' q' (by simpa using hp') (by simpa using hq')
          simpa [List.append_assoc] using this
      · intro i p' hp' hnb
        cases i with
        | zero =>
          simp only [List.getElem?_cons_zero, Option.some.injEq] at hp'
          subst hp'; exact absurd hb hnb
        | succ i =>
          have := ih.2.2 i p' (by simpa using hp') hnb
          simpa [List.append_assoc] using this
    · obtain ⟨q, h1, h2, h3, h4⟩ := clipLead_column (E := E) p (hw p (by simp)) hb
      have hb' : lstrip E p.2 ≠ [] := fun h => hb ((blank_iff p).2 h)
      have hq := h2.column (hcol p (by simp))
      have hqne : q.2 ≠ [] := by rw [h3]; exact hb'
      have hge : E.column ≤ q.1.columnNumber := by
        obtain ⟨as, -, g2⟩ := hq.2 hqne
        have : ∀ l : List (List α), 0 ≤ (l.map (fun a => ((detab E a).length : Int))).sum := by
          intro l
          induction l with
          | nil => simp
          | cons a l ih => simp only [List.map_cons, List.sum_cons]; omega
        have := this as
        omega
      have hstep := indentStep_spec (E := E) (info := q.1) hs hge (fun h => column_first ht hq hqne h)
      unfold indentLoop at hnone ⊢
      dsimp only at hnone ⊢
      rw [if_neg (by simpa using hb'), h1] at hnone ⊢
      dsimp only at hnone ⊢
      rcases hstep with ⟨hacc, ls', hls, hs'⟩ | ⟨-, herr⟩
      · rw [hls] at hnone ⊢
        dsimp only at hnone ⊢
        rw [h4] at hs' hacc
        have hcols : columns E (pre ++ [p]) = columns E pre ++ [startColumn E p] := by
          rw [columns_snoc, if_neg hb]
        have ih := indentLoop_spec ht rest (pre ++ [p]) ls' hw' hcol' (by rw [hcols]; exact hs') hnone
        generalize (indentLoop E rest none ls' []).1 = out at ih ⊢
        simp only [List.map_nil, List.nil_append]
        refine ⟨by simp [ih.1], ?_, ?_⟩
        · intro i p' q' hp' hq'
          cases i with
          | zero =>
            simp only [List.getElem?_cons_zero, Option.some.injEq] at hp' hq'
            subst hp' hq'
            refine ⟨setIndent_same _ h2, ?_⟩
            rw [if_neg hb]
            refine ⟨h3, h4, ls', ?_, ?_, rfl⟩
            · exact hs'.1.imp (fun h => by omega)
            · simpa [hcols] using hs'.2
          | succ i =>
            have := ih.2.1 i p' q' (by simpa using hp') (by simpa using hq')
            simpa [List.append_assoc] using this
        · intro i p' hp' hnb
          cases i with
          | zero =>
            simp only [List.getElem?_cons_zero, Option.some.injEq] at hp'
            subst hp'
            simpa using hacc
          | succ i =>
            have := ih.2.2 i p' (by simpa using hp') hnb
            simpa [List.append_assoc] using this
      · rw [herr] at hnone
        simp at hnone

/-- The exception raised, if any. -/
theorem indentLoop_error (ht : E.tabWidth > 0) : ∀ (li pre : List (Pair α μ)) (ls : List Int),
    AllWhole li → (∀ p ∈ li, Column E p) → StackOK E.column (columns E pre) ls →
    (indentLoop E li none ls []).2 ≠ none →
    (indentLoop E li none ls []).2 = some .indentationError ∧
    ∃ (i : Nat) (p : Pair α μ), li[i]? = some p ∧ ¬ Blank E p ∧
      ¬ Accepted E.column (columns E (pre ++ li.take i)) (startColumn E p)
  | [], pre, ls, _, _, _, h => by simp [indentLoop] at h
  | p :: rest, pre, ls, hw, hcol, hs, hne => by
    have hw' : AllWhole rest := fun q hq => hw q (by simp [hq])
    have hcol' : ∀ p ∈ rest, Column E p := fun q hq => hcol q (by simp [hq])
    by_cases hb : Blank E p
    · have hb' := (blank_iff p).1 hb
      obtain ⟨q, h1, h2, h3⟩ := clipBlank_spec (E := E) p (hw p (by simp))
      have hstep : indentLoop E (p :: rest) none ls [] = indentLoop E rest none ls ([] ++ [q]) := by
        conv => lhs; unfold indentLoop
        dsimp only
        rw [if_pos (by simp [hb']), h1]
      have i2 := indentLoop_blank (E := E) rest none ls ([] ++ [q]) hw'
      rw [hstep, i2.1] at hne ⊢
      obtain ⟨h1, i, p', g1, g2, g3⟩ := indentLoop_error ht rest (pre ++ [p]) ls hw' hcol'
        (by rw [columns_snoc, if_pos hb]; exact hs) hne
      exact ⟨h1, i + 1, p', by simpa using g1, g2, by simpa [List.append_assoc] using g3⟩
    · obtain ⟨q, h1, h2, h3, h4⟩ := clipLead_column (E := E) p (hw p (by simp)) hb
      have hb' : lstrip E p.2 ≠ [] := fun h => hb ((blank_iff p).2 h)
      have hq := h2.column (hcol p (by simp))
      have hqne : q.2 ≠ [] := by rw [h3]; exact hb'
      have hge : E.column ≤ q.1.columnNumber := by
        obtain ⟨as, -, g2⟩ := hq.2 hqne
        have : ∀ l : List (List α), 0 ≤ (l.map (fun a => ((detab E a).length : Int))).sum := by
          intro l
          induction l with
          | nil => simp
          | cons a l ih => simp only [List.map_cons, List.sum_cons]; omega
        have := this as
        omega
      have hstep := indentStep_spec (E := E) (info := q.1) hs hge (fun h => column_first ht hq hqne h)
      unfold indentLoop at hne ⊢
      dsimp only at hne ⊢
      rw [if_neg (by simpa using hb'), h1] at hne ⊢
      dsimp only at hne ⊢
      rcases hstep with ⟨hacc, ls', hls, hs'⟩ | ⟨hacc, herr⟩
      · rw [hls] at hne ⊢
        dsimp only at hne ⊢
        rw [h4] at hs'
        have hcols : columns E (pre ++ [p]) = columns E pre ++ [startColumn E p] := by
          rw [columns_snoc, if_neg hb]
        obtain ⟨h1, i, p', g1, g2, g3⟩ := indentLoop_error ht rest (pre ++ [p]) ls' hw' hcol'
          (by rw [hcols]; exact hs') hne
        exact ⟨h1, i + 1, p', by simpa using g1, g2, by simpa [List.append_assoc] using g3⟩
      · rw [herr]
        refine ⟨rfl, 0, p, rfl, hb, ?_⟩
        rw [h4] at hacc
        simpa using hacc

theorem nextIndent_none : ∀ (li out : List (Pair α μ)), (∀ p ∈ li, Blank E p) → nextIndent E li out = 0
  | [], _, _ => by simp [nextIndent]
  | p :: li, [], _ => by simp [nextIndent]
  | p :: li, q :: out, h => by
    rw [nextIndent, if_pos (h p (by simp))]
    exact nextIndent_none li out (fun p hp => h p (by simp [hp]))

theorem nextIndent_some : ∀ (j : Nat) (li out : List (Pair α μ)) (p q : Pair α μ),
    (∀ (k : Nat) p', k < j → li[k]? = some p' → Blank E p') → li[j]? = some p → ¬ Blank E p →
    out[j]? = some q → nextIndent E li out = q.1.indent
  | _, [], _, _, _, _, h, _, _ => by simp at h
  | _, _ :: _, [], _, _, _, _, _, h => by simp at h
  | 0, p' :: li, q' :: out, p, q, _, h1, h2, h3 => by
    simp only [List.getElem?_cons_zero, Option.some.injEq] at h1 h3
    subst h1 h3
    rw [nextIndent, if_neg h2]
  | j + 1, p' :: li, q' :: out, p, q, h0, h1, h2, h3 => by
    rw [nextIndent, if_pos (h0 0 p' (by omega) rfl)]
    exact nextIndent_some j li out p q (fun k p'' hk hp => h0 (k + 1) p'' (by omega) (by simpa using hp))
      (by simpa using h1) h2 (by simpa using h3)

theorem stack_nil : StackOK E.column (columns E ([] : List (Pair α μ))) [] := by
  refine ⟨.nil, fun v => ?_⟩
  constructor
  · simp
  · rintro ⟨-, a, b, h, -⟩
    simp [columns] at h

section Statements
variable {li : List (Pair α μ)}

/-- C51: if no exception is raised, lines_strip_indent yields every line, in order; a line that is not
blank loses its leading whitespace, its column_number is the column of its first character, and its
indent is the number of indentation levels open at this line. (`Whole` and `Column` hold for the lines of
every chain, see C50 and C65.) -/
theorem C51_indent_is_the_number_of_levels (ht : E.tabWidth > 0) (hw : ∀ p ∈ li, Whole p)
    (hcol : ∀ p ∈ li, Column E p) (out : List (Pair α μ))
    (h : Modifier.apply E (li, none) .stripIndent = (out, none)) :
    out.length = li.length ∧
    ∀ (i : Nat) p q, li[i]? = some p → out[i]? = some q → ¬ Blank E p →
      Same E p q ∧ q.2 = p.2.dropWhile E.isSpace ∧ q.1.columnNumber = startColumn E p ∧
      Levels E.column (columns E (li.take (i + 1))) q.1.indent := by
  simp only [Modifier.apply] at h
  have := indentLoop_spec ht li [] [] hw hcol stack_nil (by rw [h])
  rw [h] at this
  refine ⟨this.1, fun i p q hp hq hb => ?_⟩
  obtain ⟨h1, h2⟩ := this.2.1 i p q hp hq
  rw [if_neg hb] at h2
  exact ⟨h1, h2⟩

/-- C51: a blank line becomes empty, and its indent is that of the next line that is not blank, or 0 if
there is none. -/
theorem C51_blank_lines (ht : E.tabWidth > 0) (hw : ∀ p ∈ li, Whole p)
    (hcol : ∀ p ∈ li, Column E p) (out : List (Pair α μ))
    (h : Modifier.apply E (li, none) .stripIndent = (out, none)) (i : Nat) (p q : Pair α μ)
    (hp : li[i]? = some p) (hq : out[i]? = some q) (hb : Blank E p) :
    q.2 = [] ∧ Same E p q ∧
    (∀ (j : Nat) p' q', i < j → (∀ k p'', i < k → k < j → li[k]? = some p'' → Blank E p'') →
      li[j]? = some p' → out[j]? = some q' → ¬ Blank E p' → q.1.indent = q'.1.indent) ∧
    ((∀ k p'', i < k → li[k]? = some p'' → Blank E p'') → q.1.indent = 0) := by
  simp only [Modifier.apply] at h
  have := indentLoop_spec ht li [] [] hw hcol stack_nil (by rw [h])
  rw [h] at this
  obtain ⟨h1, h2⟩ := this.2.1 i p q hp hq
  rw [if_pos hb] at h2
  refine ⟨h2.1, h1, ?_, ?_⟩
  · intro j p' q' hij hmid hp' hq' hb'
    rw [h2.2]
    refine nextIndent_some (j - i) _ _ p' q' ?_ ?_ hb' ?_
    · intro k p'' hk hp''
      rw [List.getElem?_drop] at hp''
      by_cases hk0 : k = 0
      · subst hk0
        rw [Nat.add_zero, hp] at hp''
        simp only [Option.some.injEq] at hp''
        exact hp'' ▸ hb
      · exact hmid (i + k) p'' (by omega) (by omega) hp''
    · rw [List.getElem?_drop, show i + (j - i) = j by omega]; exact hp'
    · rw [List.getElem?_drop, show i + (j - i) = j by omega]; exact hq'
  · intro hall
    rw [h2.2]
    apply nextIndent_none
    intro p'' hp''
    obtain ⟨k, hk⟩ := List.getElem?_of_mem hp''
    rw [List.getElem?_drop] at hk
    by_cases hk0 : k = 0
    · subst hk0
      rw [Nat.add_zero, hp] at hk
      simp only [Option.some.injEq] at hk
      exact hk ▸ hb
    · exact hall (i + k) p'' (by omega) hk

/-- C109: lines_strip_indent raises an exception, IndentationError, exactly if some line that is not
blank starts at a column that is not accepted: neither the first column, nor at or right of all open
levels, nor the level just one out. (One would expect every enclosing level to be accepted, see the counterexample.) -/
theorem C109_dedent_accepted (ht : E.tabWidth > 0) (hw : ∀ p ∈ li, Whole p)
    (hcol : ∀ p ∈ li, Column E p) :
    ((Modifier.apply E (li, none) .stripIndent).2 = none ∨
      (Modifier.apply E (li, none) .stripIndent).2 = some .indentationError) ∧
    ((Modifier.apply E (li, none) .stripIndent).2 = some .indentationError ↔
      ∃ (i : Nat) (p : Pair α μ), li[i]? = some p ∧ ¬ Blank E p ∧
        ¬ Accepted E.column (columns E (li.take i)) (startColumn E p)) := by
  simp only [Modifier.apply]
  cases hr : (indentLoop E li none [] []).2 with
  | none =>
    refine ⟨.inl rfl, by simp, ?_⟩
    rintro ⟨i, p, h1, h2, h3⟩
    exact absurd ((indentLoop_spec ht li [] [] hw hcol stack_nil hr).2.2 i p h1 h2) h3
  | some e =>
    obtain ⟨h1, h2⟩ := indentLoop_error ht li [] [] hw hcol stack_nil (by rw [hr]; simp)
    rw [hr] at h1
    rw [h1]
    exact ⟨.inr rfl, fun _ => h2, fun _ => rfl⟩

/-- C51: a line that is not blank and starts left of an open level, but neither at one of the open levels nor at the
first column, makes lines_strip_indent raise IndentationError; and that is the only exception it raises. -/
theorem C51_refused (ht : E.tabWidth > 0) (hw : ∀ p ∈ li, Whole p) (hcol : ∀ p ∈ li, Column E p) :
    (∀ e, (Modifier.apply E (li, none) .stripIndent).2 = some e → e = .indentationError) ∧
    ∀ (i : Nat) (p : Pair α μ) (v : Int), li[i]? = some p → ¬ Blank E p →
      Enclosing E.column (columns E (li.take i)) v → startColumn E p < v →
      ¬ Enclosing E.column (columns E (li.take i)) (startColumn E p) → startColumn E p ≠ E.column →
      (Modifier.apply E (li, none) .stripIndent).2 = some .indentationError := by
  obtain ⟨h1, h2⟩ := C109_dedent_accepted ht hw hcol
  refine ⟨fun e he => ?_, fun i p v hp hb hv hl hn hf => h2.2 ⟨i, p, hp, hb, ?_⟩⟩
  · rcases h1 with h | h <;> rw [h] at he
    · simp at he
    · simpa using he.symm
  · rintro (h | h | ⟨h, _⟩)
    · exact hf h
    · have := h v hv; omega
    · exact hn h

/-- The hypotheses hold for what any chain of modifiers yields. -/
theorem C51_hypotheses_hold (hc : Big.MS.CacheOK E.sq.cache) (hsort : ∀ l w, w ∈ E.sq.sort l ↔ w ∈ l)
    (n : Int) (src : Source α) (ms : List (Modifier α μ)) (hms : ∀ m ∈ ms, m.Legal) :
    ∀ p ∈ (chain E (lines E n src) ms).1, Whole p ∧ Column E p := by
  intro q hq
  obtain ⟨p, h1, h2⟩ := (chain_from hc hsort ms (lines E n src) (fun p hp => (lines_pair n src p hp).1) hms).1 q hq
  exact ⟨h2.whole, h2.column (lines_pair n src p h1).2⟩

end Statements

example : run strEnv "a\n  b\n\n\tc\n  d\ne\n \n" [.stripIndent]
    = ([⟨1, "", "a", "", "\n", 0⟩, ⟨3, "  ", "b", "", "\n", 1⟩, ⟨1, "", "", "", "\n", 2⟩,
        ⟨9, "\t", "c", "", "\n", 2⟩, ⟨3, "  ", "d", "", "\n", 1⟩, ⟨1, "", "e", "", "\n", 0⟩,
        ⟨1, "", "", " ", "\n", 0⟩, ⟨1, "", "", "", "", 0⟩], none) := by decide +kernel

/-- The last line goes back to the level of the first, which is open, but IndentationError is raised. -/
theorem C109_counterexample_dedent_two_levels :
    run strEnv " a\n  b\n   c\n a" [.stripIndent]
      = ([⟨2, " ", "a", "", "\n", 1⟩, ⟨3, "  ", "b", "", "\n", 2⟩, ⟨4, "   ", "c", "", "\n", 3⟩],
          some .indentationError) ∧
    Enclosing 1 [2, 3, 4] 2 := by
  refine ⟨by decide +kernel, by decide, [], [3, 4], rfl, by decide⟩

end Big.Lines
