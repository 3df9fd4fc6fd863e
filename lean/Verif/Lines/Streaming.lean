import Verif.Lines.Model
/-!
# C82: chains of lines modifiers work on streams

A source that raises an exception `e` after the lines `xs` shows what a chain of modifiers has yielded once it has read
`xs` and asks for more: `(chain E (xs, some e) ms).1`.
-/
namespace Big.Lines
variable {α μ : Type} [DecidableEq α] {E : Env α}

/-! ### Specification -/

/-- All that a chain of modifiers yields from the source that has the lines `xs` and then ends, or raises `e`. -/
def yielded (E : Env α) (ms : List (Modifier α μ)) (xs : List (Pair α μ)) (e : Option Err) : List (Pair α μ) :=
  (chain E (xs, e) ms).1

/-- How iteration over the chain ends: normally or with an exception. -/
def ends (E : Env α) (ms : List (Modifier α μ)) (xs : List (Pair α μ)) (e : Option Err) : Option Err :=
  (chain E (xs, e) ms).2

/-- Modifiers that have to look at later lines: lines_sort and lines_strip_indent. -/
def Waits : Modifier α μ → Prop
  | .sort _ _ => True
  | .stripIndent => True
  | _ => False

/-! ### Lemmas -/

/-- `s` is what happens with a source that raises, `t` with one that goes on. -/
def Ext (e : Err) (s t : Stream α μ) : Prop := (s.2 = some e ∧ s.1 <+: t.1) ∨ (s = t ∧ s.2 ≠ none)

theorem each_app (f : Pair α μ → Except Err (Option (Pair α μ))) (ys : List (Pair α μ)) (e : Err) (e' : Option Err) :
    ∀ xs, Ext e (each f xs (some e)) (each f (xs ++ ys) e')
  | [] => .inl ⟨rfl, List.nil_prefix⟩
  | p :: xs => by
    have ih := each_app f ys e e' xs
    simp only [each, List.cons_append]
    cases f p with
    | error e'' => exact .inr ⟨rfl, by simp⟩
    | ok o =>
      cases o with
      | none => exact ih
      | some q =>
        rcases ih with ⟨h1, h2⟩ | ⟨h1, h2⟩
        · exact .inl ⟨h1, by simpa using h2⟩
        · exact .inr ⟨by rw [h1], h2⟩

theorem commentLoop_app (a : Comments α) (ys : List (Pair α μ)) (e : Err) (e' : Option Err) :
    ∀ (xs : List (Pair α μ)) (state : List α), Ext e (commentLoop E a state xs (some e)) (commentLoop E a state (xs ++ ys) e')
  | [], state => .inl ⟨by simp [commentLoop], by simp [commentLoop]⟩
  | p :: xs, state => by
    simp only [commentLoop, List.cons_append]
    cases commentOne E a state p with
    | error e'' => exact .inr ⟨rfl, by simp⟩
    | ok o =>
      obtain ⟨q, st⟩ := o
      dsimp only
      rcases commentLoop_app a ys e e' xs st with ⟨h1, h2⟩ | ⟨h1, h2⟩
      · exact .inl ⟨h1, by simpa using h2⟩
      · exact .inr ⟨by rw [h1], h2⟩

theorem indentLoop_app (ys : List (Pair α μ)) (e : Err) (e' : Option Err) :
    ∀ (xs : List (Pair α μ)) (ls : List Int) (bl : List (Pair α μ)),
      Ext e (indentLoop E xs (some e) ls bl) (indentLoop E (xs ++ ys) e' ls bl)
  | [], ls, bl => .inl ⟨by simp [indentLoop], by simp [indentLoop]⟩
  | p :: xs, ls, bl => by
    simp only [indentLoop, List.cons_append]
    split
    · split
      · exact .inr ⟨rfl, by simp⟩
      · exact indentLoop_app ys e e' xs _ _
    · split
      · exact .inr ⟨rfl, by simp⟩
      · split
        · exact .inr ⟨rfl, by simp⟩
        · rename_i q _ ls' _
          rcases indentLoop_app ys e e' xs ls' [] with ⟨h1, h2⟩ | ⟨h1, h2⟩
          · exact .inl ⟨h1, by simpa using h2⟩
          · exact .inr ⟨by rw [h1], h2⟩

theorem apply_ext (m : Modifier α μ) {e : Err} {s t : Stream α μ} (h : Ext e s t) : Ext e (m.apply E s) (m.apply E t) := by
  rcases h with ⟨h1, ys, h2⟩ | ⟨rfl, h2⟩
  · obtain ⟨xs, es⟩ := s
    obtain ⟨zs, et⟩ := t
    dsimp only at h1 h2
    subst h1 h2
    cases m with
    | rstrip o => cases o <;> exact each_app ..
    | strip o => cases o <;> exact each_app ..
    | filterLineCommentLines ms =>
      simp only [Modifier.apply]
      split
      · exact .inr ⟨rfl, by simp⟩
      · exact each_app ..
    | containing s inv => exact each_app ..
    | grep f n inv => exact each_app ..
    | sort lt r => exact .inl ⟨rfl, List.nil_prefix⟩
    | stripLineComments a =>
      simp only [Modifier.apply]
      split
      · exact .inr ⟨rfl, by simp⟩
      · split
        · exact .inr ⟨rfl, by simp⟩
        · exact commentLoop_app ..
    | convertTabsToSpaces => exact each_app ..
    | stripIndent => exact indentLoop_app ..
    | filterEmptyLines => exact each_app ..
  · refine .inr ⟨rfl, ?_⟩
    obtain ⟨xs, es⟩ := s
    cases es with
    | none => exact absurd rfl h2
    | some e' =>
      have key : ∀ f : Pair α μ → Except Err (Option (Pair α μ)), (each f xs (some e')).2 ≠ none := by
        intro f
        rcases each_app f [] e' none xs with ⟨h, _⟩ | ⟨_, h⟩
        · rw [h]; simp
        · exact h
      cases m with
      | rstrip o => cases o <;> exact key _
      | strip o => cases o <;> exact key _
      | filterLineCommentLines ms =>
        simp only [Modifier.apply]
        split
        · simp
        · exact key _
      | containing s inv => exact key _
      | grep f n inv => exact key _
      | sort lt r => simp [Modifier.apply]
      | stripLineComments a =>
        simp only [Modifier.apply]
        split
        · simp
        · split
          · simp
          · rcases commentLoop_app (E := E) a [] e' none xs [] with ⟨h, _⟩ | ⟨_, h⟩
            · rw [h]; simp
            · exact h
      | convertTabsToSpaces => exact key _
      | stripIndent =>
        rcases indentLoop_app (E := E) [] e' none xs [] [] with ⟨h, _⟩ | ⟨_, h⟩
        · simp [Modifier.apply, h]
        · exact h
      | filterEmptyLines => exact key _

theorem chain_ext {e : Err} : ∀ (ms : List (Modifier α μ)) {s t : Stream α μ}, Ext e s t → Ext e (chain E s ms) (chain E t ms)
  | [], _, _, h => h
  | m :: ms, _, _, h => chain_ext ms (apply_ext m h)

theorem ext_start (xs ys : List (Pair α μ)) (e : Err) (e' : Option Err) :
    Ext e (xs, some e) (xs ++ ys, e') := .inl ⟨rfl, List.prefix_append _ _⟩

/-! ### C82 -/

/-- C82: whatever the chain, what it has yielded once it has read some of the lines does not depend on the lines that
follow, if any, nor on how the source ends: later lines only add to it. -/
theorem C82_streaming (ms : List (Modifier α μ)) (xs ys : List (Pair α μ)) (e : Err) (e' : Option Err) :
    yielded E ms xs (some e) <+: yielded E ms (xs ++ ys) e' := by
  rcases chain_ext (E := E) ms (ext_start xs ys e e') with ⟨_, h⟩ | ⟨h, _⟩
  · exact h
  · unfold yielded; rw [h]; exact List.prefix_rfl

/-- C82: an exception raised by the source is raised by the chain, unless one of the modifiers has raised one for the
lines before, and then nothing after those lines matters. -/
theorem C82_exceptions_pass (ms : List (Modifier α μ)) (xs : List (Pair α μ)) (e : Err) :
    ends E ms xs (some e) = some e ∨
    ∀ ys e', yielded E ms (xs ++ ys) e' = yielded E ms xs (some e) ∧ ends E ms (xs ++ ys) e' = ends E ms xs (some e) := by
  by_cases h : ends E ms xs (some e) = some e
  · exact .inl h
  · right
    intro ys e'
    rcases chain_ext (E := E) ms (ext_start xs ys e e') with ⟨h', _⟩ | ⟨h', _⟩
    · exact absurd h' h
    · unfold yielded ends; rw [h']; exact ⟨rfl, rfl⟩

theorem each_end (f : Pair α μ → Except Err (Option (Pair α μ))) (e e' : Option Err) :
    ∀ xs, (each f xs e).1 = (each f xs e').1
  | [] => rfl
  | p :: xs => by
    have ih := each_end f e e' xs
    simp only [each]
    split <;> simp [ih]

theorem commentLoop_end (a : Comments α) (e e' : Option Err) :
    ∀ (xs : List (Pair α μ)) (state : List α), (commentLoop E a state xs e).1 = (commentLoop E a state xs e').1
  | [], state => by cases e <;> cases e' <;> simp [commentLoop]
  | p :: xs, state => by
    simp only [commentLoop]
    split
    · rfl
    · rename_i q st _
      simp [commentLoop_end a e e' xs st]

theorem apply_end (m : Modifier α μ) (hm : ¬ Waits m) {s t : Stream α μ} (h : s.1 = t.1) : (m.apply E s).1 = (m.apply E t).1 := by
  obtain ⟨xs, e⟩ := s
  obtain ⟨_, e'⟩ := t
  dsimp only at h
  subst h
  cases m with
  | rstrip o => cases o <;> exact each_end ..
  | strip o => cases o <;> exact each_end ..
  | filterLineCommentLines ms =>
    simp only [Modifier.apply]
    split
    · rfl
    · exact each_end ..
  | containing s inv => exact each_end ..
  | grep f n inv => exact each_end ..
  | sort lt r => exact absurd trivial hm
  | stripLineComments a =>
    simp only [Modifier.apply]
    split
    · rfl
    · split
      · rfl
      · exact commentLoop_end ..
  | convertTabsToSpaces => exact each_end ..
  | stripIndent => exact absurd trivial hm
  | filterEmptyLines => exact each_end ..

theorem chain_end : ∀ (ms : List (Modifier α μ)) (_ : ∀ m ∈ ms, ¬ Waits m) {s t : Stream α μ}, s.1 = t.1 →
    (chain E s ms).1 = (chain E t ms).1
  | [], _, _, _, h => h
  | m :: ms, hm, _, _, h => chain_end ms (fun m' h' => hm m' (by simp [h'])) (apply_end m (hm m (by simp)) h)

/-- C82: a chain without lines_sort and lines_strip_indent yields everything at once: when the source ends, nothing has
been held back. -/
theorem C82_at_once (ms : List (Modifier α μ)) (hm : ∀ m ∈ ms, ¬ Waits m) (xs : List (Pair α μ)) (e : Err) :
    yielded E ms xs none = yielded E ms xs (some e) := chain_end ms hm rfl

/-- One more line, at most. -/
def OneMore (s t : List (Pair α μ)) : Prop := t = s ∨ ∃ q, t = s ++ [q]

theorem OneMore.cons {s t : List (Pair α μ)} (q : Pair α μ) (h : OneMore s t) : OneMore (q :: s) (q :: t) := by
  rcases h with rfl | ⟨r, rfl⟩
  · exact .inl rfl
  · exact .inr ⟨r, rfl⟩

theorem each_more (f : Pair α μ → Except Err (Option (Pair α μ))) (x : Pair α μ) (e e' : Option Err) :
    ∀ xs, OneMore (each f xs e).1 (each f (xs ++ [x]) e').1
  | [] => by
    simp only [List.nil_append, each]
    split
    · exact .inl rfl
    · exact .inl rfl
    · exact .inr ⟨_, rfl⟩
  | p :: xs => by
    have ih := each_more f x e e' xs
    simp only [List.cons_append, each]
    split
    · exact .inl rfl
    · exact ih
    · exact ih.cons _

theorem commentLoop_more (a : Comments α) (x : Pair α μ) (e e' : Option Err) :
    ∀ (xs : List (Pair α μ)) (state : List α),
      OneMore (commentLoop E a state xs e).1 (commentLoop E a state (xs ++ [x]) e').1
  | [], state => by
    have h : (commentLoop E a state ([] : List (Pair α μ)) e).1 = [] := by cases e <;> simp [commentLoop]
    rw [h]
    simp only [List.nil_append, commentLoop]
    split
    · exact .inl rfl
    · rename_i q st _
      have : (commentLoop E a st ([] : List (Pair α μ)) e').1 = [] := by cases e' <;> simp [commentLoop]
      exact .inr ⟨q, by simp [this]⟩
  | p :: xs, state => by
    simp only [commentLoop, List.cons_append]
    split
    · exact .inl rfl
    · exact (commentLoop_more a x e e' xs _).cons _

theorem apply_more (m : Modifier α μ) (hm : ¬ Waits m) {s t : Stream α μ} (h : OneMore s.1 t.1) :
    OneMore (m.apply E s).1 (m.apply E t).1 := by
  rcases h with h | ⟨x, h⟩
  · exact .inl (apply_end m hm h)
  · obtain ⟨xs, e⟩ := s
    obtain ⟨_, e'⟩ := t
    dsimp only at h
    subst h
    cases m with
    | rstrip o => cases o <;> exact each_more ..
    | strip o => cases o <;> exact each_more ..
    | filterLineCommentLines ms =>
      simp only [Modifier.apply]
      split
      · exact .inl rfl
      · exact each_more ..
    | containing s inv => exact each_more ..
    | grep f n inv => exact each_more ..
    | sort lt r => exact absurd trivial hm
    | stripLineComments a =>
      simp only [Modifier.apply]
      split
      · exact .inl rfl
      · split
        · exact .inl rfl
        · exact commentLoop_more ..
    | convertTabsToSpaces => exact each_more ..
    | stripIndent => exact absurd trivial hm
    | filterEmptyLines => exact each_more ..

/-- C82: and each line it reads makes it yield one line or none. -/
theorem C82_one_at_a_time : ∀ (ms : List (Modifier α μ)) (_ : ∀ m ∈ ms, ¬ Waits m) (xs : List (Pair α μ)) (x : Pair α μ)
    (e e' : Option Err),
    yielded E ms (xs ++ [x]) e' = yielded E ms xs e ∨ ∃ q, yielded E ms (xs ++ [x]) e' = yielded E ms xs e ++ [q] := by
  have key : ∀ (ms : List (Modifier α μ)) (_ : ∀ m ∈ ms, ¬ Waits m) {s t : Stream α μ}, OneMore s.1 t.1 →
      OneMore (chain E s ms).1 (chain E t ms).1 := by
    intro ms
    induction ms with
    | nil => intro _ s t h; exact h
    | cons m ms ih => intro hm s t h; exact ih (fun m' h' => hm m' (by simp [h'])) (apply_more m (hm m (by simp)) h)
  intro ms hm xs x e e'
  exact key ms hm (.inr ⟨x, rfl⟩)

/-- The hypothesis holds of a chain of four modifiers. -/
example (f : List α → Option μ) (c : Comments α) : ∀ m ∈ [Modifier.rstrip none, .stripLineComments c, .filterEmptyLines,
    .grep f "match" false], ¬ Waits m := by
  intro m hm
  simp only [List.mem_cons, List.not_mem_nil, or_false] at hm
  rcases hm with rfl | rfl | rfl | rfl <;> exact id

/-- C82: lines_strip_indent holds back only blank lines: at the end of the source, all it still yields is the blank lines
after the last line that is not blank. -/
theorem C82_indent_holds_blank_lines (xs : List (Pair α μ)) (e : Err) :
    ∃ held, yielded E [.stripIndent] xs none = yielded E [.stripIndent] xs (some e) ++ held ∧
      (∀ q ∈ held, q.2 = []) ∧ ∀ front p, xs = front ++ [p] → lstrip E p.2 ≠ [] → held = [] := by
  have key : ∀ (xs : List (Pair α μ)) (ls : List Int) (bl : List (Pair α μ)), (∀ q ∈ bl, q.2 = []) →
      ∃ held, (indentLoop E xs none ls bl).1 = (indentLoop E xs (some e) ls bl).1 ++ held ∧ (∀ q ∈ held, q.2 = []) ∧
        ∀ front p, xs = front ++ [p] → lstrip E p.2 ≠ [] → held = [] := by
    intro xs
    induction xs with
    | nil =>
      intro ls bl hb
      refine ⟨bl.map (setIndent · 0), by simp [indentLoop], ?_, fun front p h => by simp at h⟩
      intro q hq
      obtain ⟨r, hr, rfl⟩ := List.mem_map.1 hq
      exact hb r hr
    | cons p xs ih =>
      intro ls bl hb
      simp only [indentLoop]
      split
      · rename_i hblank
        split
        · refine ⟨[], by simp, by simp, fun _ _ _ _ => rfl⟩
        · rename_i q hq
          have hq2 : q.2 = [] := by
            have ht : sliceTo p.2 (-(p.2.length : Int)) = [] := by
              unfold sliceTo
              split
              · cases hp : p.2 with
                | nil => simp
                | cons c a => rename_i h; rw [hp] at h; simp at h; omega
              · simp
            unfold clipTrailing at hq
            simp only [ht, List.isEmpty_nil, if_true] at hq
            unfold clipAll at hq
            split at hq
            · simp at hq
            · cases hq; rfl
          obtain ⟨held, h1, h2, h3⟩ := ih ls (bl ++ [q]) (by
            intro r hr
            rcases List.mem_append.1 hr with h | h
            · exact hb r h
            · rw [List.mem_singleton.1 h]; exact hq2)
          refine ⟨held, h1, h2, fun front p' h hp' => ?_⟩
          cases front with
          | nil =>
            cases h
            simp at hblank
            exact absurd hblank hp'
          | cons _ front =>
            cases h
            exact h3 front p' rfl hp'
      · split
        · exact ⟨[], by simp, by simp, fun _ _ _ _ => rfl⟩
        · split
          · exact ⟨[], by simp, by simp, fun _ _ _ _ => rfl⟩
          · rename_i q _ ls' _
            obtain ⟨held, h1, h2, h3⟩ := ih ls' [] (by simp)
            refine ⟨held, by simp [h1], h2, fun front p' h hp' => ?_⟩
            cases front with
            | nil =>
              cases h
              simp [indentLoop] at h1
              exact h1
            | cons _ front =>
              cases h
              exact h3 front p' rfl hp'
  exact key xs [] [] (by simp)

/-- lines_sort, though, yields nothing before it has read all lines. -/
theorem C82_sort_waits (lt : Pair α μ → Pair α μ → Bool) (r : Bool) (xs : List (Pair α μ)) (e : Err) :
    yielded E [.sort lt r] xs (some e) = [] := rfl

end Big.Lines
