import Verif.Wrap.SplitProps
/-! # C53: exactly what split_text_with_code gives, for every text -/
namespace Big.Wrap

variable {α : Type} [DecidableEq α] {E : Env α} {o : Opt}

/-- Specification: what split_text_with_code gives for the lines of a text, or `none` for an AssertionError.
It is the `layout` but for two things. The newlines after a line of code that is followed by text (`kept` of
them: one, and one for each blank line) are inserted before the next line of code, wherever it is; if that
line is not separated from the text by a blank line the assertion fails instead. And if the last line is
code, it is lost. -/
def actual (E : Env α) (o : Opt) : Kind → Nat → Nat → List (List α) → Option (List (List α))
  | _, _, _, [] => some []
  | prev, blanks, kept, line :: lines =>
    match kind E o line with
    | .blank => actual E o prev (blanks + 1) kept lines
    | .text =>
      (actual E o .text 0 (if prev = .code then blanks + 1 else kept) lines).map
        (breaks E prev blanks .text ++ elements E o line ++ ·)
    | .code =>
      if prev = .text ∧ blanks = 0 ∧ kept ≠ 0 then none
      else
        (actual E o .code 0 0 lines).map
          (breaks E prev blanks .code ++ (if prev = .text then List.replicate kept [E.nl] else []) ++
            (if lines.isEmpty then [] else elements E o line) ++ ·)

/-- The state between lines for a given last kind, number of blank lines, and number of newlines kept. -/
def Agrees' (L : LState α) (prev : Kind) (blanks kept : Nat) : Prop :=
  Agrees L prev blanks ∧ (prev ≠ .code → L.pend = kept)

/-- The result of `actual` as a result of a function that may raise. -/
def toExcept (words : List (List α)) : Option (List (List α)) → Except Err (List (List α))
  | none => .error .assertionError
  | some out => .ok (words ++ out)

theorem toExcept_map (words pre : List (List α)) (r : Option (List (List α))) :
    toExcept words (r.map (pre ++ ·)) = toExcept (words ++ pre) r := by
  cases r <;> simp [toExcept]

theorem before_exact {L : LState α} {prev : Kind} {blanks kept : Nat} (h : Agrees' L prev blanks kept) (line : List α) :
    (kind E o line = .text → before E o L line = L.words ++ breaks E prev blanks .text) ∧
    (kind E o line = .code →
      ((opened E L).2 = some .text ∧ L.pend ≠ 0 ↔ prev = .text ∧ blanks = 0 ∧ kept ≠ 0) ∧
      (¬ (prev = .text ∧ blanks = 0 ∧ kept ≠ 0) → before E o L line =
        L.words ++ (breaks E prev blanks .code ++ (if prev = .text then List.replicate kept [E.nl] else [])))) := by
  obtain ⟨hA, hk⟩ := h
  unfold before opened
  cases prev with
  | blank =>
    obtain ⟨h1, h2, h3, h4⟩ := hA
    constructor <;> intro hl <;> rw [hl] <;> simp [h1, h2, h3, h4, breaks]
  | text =>
    obtain ⟨h1, h2⟩ := hA
    have hk := hk (by simp)
    subst hk
    by_cases hb : blanks = 0
    · constructor
      · intro hl; rw [hl]; simp [h1, h2, hb, breaks]
      · intro hl; rw [hl]
        by_cases h0 : L.pend = 0 <;> simp [h1, h2, hb, breaks, h0]
    · constructor <;> intro hl <;> rw [hl] <;> simp [h1, h2, hb, breaks]
  | code =>
    obtain ⟨h1, h2, h3⟩ := hA
    constructor <;> intro hl <;> rw [hl] <;> simp [h1, h2, h3, breaks]

theorem byLines_exact : ∀ (init : List (List α)) (last : List α) (L : LState α) (prev : Kind) (blanks kept : Nat),
    Agrees' L prev blanks kept →
    (stepLines E o L init).bind (fun L => finish E o L last) =
      toExcept L.words (actual E o prev blanks kept (init ++ [last])) := by
  intro init
  induction init with
  | nil =>
    intro last L prev blanks kept hA
    simp only [stepLines, List.nil_append, Except.bind]
    obtain ⟨hb1, hb2⟩ := before_exact (E := E) (o := o) hA last
    unfold finish actual
    cases hk : kind E o last with
    | blank => simp [actual, toExcept]
    | text => dsimp only; rw [hb1 hk]; simp [actual, toExcept]
    | code =>
      obtain ⟨h1, h2⟩ := hb2 hk
      dsimp only
      by_cases hq : prev = .text ∧ blanks = 0 ∧ kept ≠ 0
      · rw [if_pos (h1.2 hq), if_pos hq]; rfl
      · rw [if_neg (fun h => hq (h1.1 h)), if_neg hq, h2 hq]; simp [actual, toExcept]
  | cons line init ih =>
    intro last L prev blanks kept hA
    obtain ⟨hb1, hb2⟩ := before_exact (E := E) (o := o) hA line
    unfold stepLines
    rw [List.cons_append, actual]
    unfold lineStep
    cases hk : kind E o line with
    | blank =>
      obtain ⟨hA, hK⟩ := hA
      dsimp only
      by_cases hs : L.start = true
      · rw [if_pos hs]
        refine ih last L prev (blanks + 1) kept ⟨?_, hK⟩
        cases prev with
        | blank => exact hA
        | text => exact ⟨hA.1, by rw [hs]; simp⟩
        | code => have := hA.2.1; rw [hs] at this; simp at this
      · rw [if_neg hs]
        by_cases hp : L.prev = some .code
        · rw [if_pos hp]
          refine (ih last _ prev (blanks + 1) kept ⟨?_, ?_⟩).trans rfl
          · cases prev with
            | blank => exact absurd hA.2.1 hs
            | text => have := hA.1; rw [hp] at this; simp at this
            | code => exact ⟨hp, by simpa using hs, by simp [hA.2.2]⟩
          · intro h
            cases prev with
            | blank => exact absurd hA.2.1 hs
            | text => have := hA.1; rw [hp] at this; simp at this
            | code => exact absurd rfl h
        · rw [if_neg hp]
          refine (ih last { L with start := true } prev (blanks + 1) kept ⟨?_, hK⟩).trans rfl
          cases prev with
          | blank => exact absurd hA.2.1 hs
          | text => exact ⟨hA.1, by simp⟩
          | code => exact absurd hA.1 hp
    | text =>
      dsimp only
      rw [toExcept_map, hb1 hk, ← List.append_assoc]
      by_cases hp : prev = .code
      · subst hp
        rw [if_pos rfl]
        refine ih last ⟨_, some .text, false, L.pend⟩ .text 0 (blanks + 1) ⟨⟨rfl, rfl⟩, fun _ => hA.1.2.2⟩
      · rw [if_neg hp]
        exact ih last ⟨_, some .text, false, L.pend⟩ .text 0 kept ⟨⟨rfl, rfl⟩, fun _ => hA.2 hp⟩
    | code =>
      obtain ⟨h1, h2⟩ := hb2 hk
      dsimp only
      by_cases hq : prev = .text ∧ blanks = 0 ∧ kept ≠ 0
      · rw [if_pos (h1.2 hq), if_pos hq]; rfl
      · rw [if_neg (fun h => hq (h1.1 h)), if_neg hq, h2 hq, toExcept_map]
        dsimp only
        rw [ih last ⟨_, some .code, false, 1⟩ .code 0 0 ⟨⟨rfl, rfl, rfl⟩, by simp⟩]
        simp

/-- C53: exactly what split_text_with_code gives, for every text whose columns can be counted: `actual`, with
one empty string if there is nothing. -/
theorem C53_exact (hnl : E.isSpace E.nl = true) (htab : E.isSpace E.tab = true) (hne : E.tab ≠ E.sp)
    (ht : 0 < o.tabWidth) (s : List α) (hc : ∀ l ∈ linesOf E.nl s, Countable E o l) :
    splitTextWithCode E o s =
      match actual E o .blank 0 0 (linesOf E.nl s) with
      | none => .error .assertionError
      | some out => .ok (if out = [] then [[]] else out) := by
  obtain ⟨init, last, h1, h2⟩ := linesOf_spec E.nl s
  have hno := linesOf_no_nl E.nl s
  rw [h1] at hc hno ⊢
  rw [h2, split_eq hnl htab ht hne init last (fun l hl => ⟨hno l hl, hc l hl⟩)]
  have := byLines_exact (E := E) (o := o) init last LState.init .blank 0 0 ⟨⟨rfl, rfl, rfl, rfl⟩, fun _ => rfl⟩
  unfold byLines
  rw [this]
  cases actual E o .blank 0 0 (init ++ [last]) <;> rfl

/-! ### when it is the layout -/

theorem layout_ne_nil (lines : List (List α)) : ∀ (prev : Kind) (blanks : Nat),
    (∃ l ∈ lines, kind E o l = .code) → layout E o prev blanks lines ≠ [] := by
  induction lines with
  | nil => intro _ _ h; obtain ⟨l, h, _⟩ := h; simp at h
  | cons line lines ih =>
    rintro prev blanks ⟨l, h1, h2⟩
    rw [layout]
    rcases List.mem_cons.1 h1 with rfl | h1
    · rw [h2]; simp [elements, h2]
    · cases kind E o line with
      | blank => exact ih _ _ ⟨l, h1, h2⟩
      | text => simp [ih .text 0 ⟨l, h1, h2⟩]
      | code => simp [ih .code 0 ⟨l, h1, h2⟩]

/-- A line of code comes after a text that comes after code. -/
def Again (E : Env α) (o : Opt) (prev : Kind) (kept : Nat) (lines : List (List α)) : Prop :=
  (prev = .text ∧ kept ≠ 0 ∧ ∃ c ∈ lines, kind E o c = .code) ∨
  (prev = .code ∧ ∃ b c, [b, c].Sublist lines ∧ kind E o b = .text ∧ kind E o c = .code) ∨
  ¬ CodeAtMostOnce E o lines

theorem again_cons {prev : Kind} {blanks kept : Nat} {line : List α} {lines : List (List α)}
    (h : Again E o prev kept (line :: lines)) :
    (kind E o line = .blank → Again E o prev kept lines) ∧
    (kind E o line = .text → Again E o .text (if prev = .code then blanks + 1 else kept) lines) ∧
    (kind E o line = .code → (prev = .text ∧ kept ≠ 0) ∨ Again E o .code 0 lines) := by
  unfold Again CodeAtMostOnce at *
  rw [Classical.not_not] at h
  simp only [Classical.not_not]
  rcases h with ⟨h1, h2, c, h3, h4⟩ | ⟨h1, b, c, h3, h4, h5⟩ | ⟨a, b, c, h1, h2, h3, h4⟩
  · refine ⟨fun hk => .inl ⟨h1, h2, c, ?_, h4⟩, fun hk => .inl ⟨trivial, ?_, c, ?_, h4⟩, fun _ => .inl ⟨h1, h2⟩⟩
    · rcases List.mem_cons.1 h3 with rfl | h; · simp [hk] at h4
      exact h
    · simp [h1, h2]
    · rcases List.mem_cons.1 h3 with rfl | h; · simp [hk] at h4
      exact h
  · rcases List.sublist_cons_iff.1 h3 with h | ⟨r, hr, h⟩
    · refine ⟨fun _ => .inr (.inl ⟨h1, b, c, h, h4, h5⟩), fun _ => .inl ⟨trivial, by simp [h1], c, h.subset (by simp), h5⟩,
        fun _ => .inr (.inr (.inl ⟨trivial, b, c, h, h4, h5⟩))⟩
    · simp only [List.cons.injEq] at hr
      obtain ⟨rfl, rfl⟩ := hr
      rw [h4]
      exact ⟨by simp, fun _ => .inl ⟨trivial, by simp [h1], c, h.subset (by simp), h5⟩, by simp⟩
  · rcases List.sublist_cons_iff.1 h1 with h | ⟨r, hr, h⟩
    · exact ⟨fun _ => .inr (.inr ⟨a, b, c, h, h2, h3, h4⟩), fun _ => .inr (.inr ⟨a, b, c, h, h2, h3, h4⟩),
        fun _ => .inr (.inr (.inr ⟨a, b, c, h, h2, h3, h4⟩))⟩
    · simp only [List.cons.injEq] at hr
      obtain ⟨rfl, rfl⟩ := hr
      rw [h2]
      exact ⟨by simp, by simp, fun _ => .inr (.inr (.inl ⟨trivial, b, c, h, h3, h4⟩))⟩

theorem actual_length (lines : List (List α)) : ∀ (prev : Kind) (blanks kept : Nat) (out : List (List α)),
    actual E o prev blanks kept lines = some out →
    (∀ l, lines.getLast? = some l → kind E o l ≠ .code) →
    (layout E o prev blanks lines).length ≤ out.length ∧
    (Again E o prev kept lines → (layout E o prev blanks lines).length < out.length) := by
  induction lines with
  | nil =>
    intro prev blanks kept out _ _
    refine ⟨by simp [layout], ?_⟩
    rintro (⟨_, _, c, h, _⟩ | ⟨_, b, c, h, _⟩ | h)
    · simp at h
    · simp at h
    · exact absurd (by rintro ⟨a, b, c, h, _⟩; simp at h) h
  | cons line lines ih =>
    intro prev blanks kept out ha hl
    have hl' : ∀ l, lines.getLast? = some l → kind E o l ≠ .code := by
      intro l h; apply hl; rw [List.getLast?_cons, h]; rfl
    have hag := fun h => again_cons (E := E) (o := o) (prev := prev) (blanks := blanks) (kept := kept) (line := line) (lines := lines) h
    rw [actual] at ha
    rw [layout]
    cases hk : kind E o line with
    | blank =>
      rw [hk] at ha
      have := ih prev (blanks + 1) kept out ha hl'
      exact ⟨this.1, fun h => this.2 ((hag h).1 hk)⟩
    | text =>
      rw [hk] at ha
      dsimp only at ha ⊢
      cases ha' : actual E o .text 0 (if prev = .code then blanks + 1 else kept) lines with
      | none => rw [ha'] at ha; simp at ha
      | some out' =>
        rw [ha'] at ha
        simp only [Option.map_some, Option.some.injEq] at ha
        have := ih _ _ _ out' ha' hl'
        subst ha
        simp only [List.length_append]
        refine ⟨by omega, fun h => ?_⟩
        have := this.2 ((hag h).2.1 hk)
        omega
    | code =>
      rw [hk] at ha
      dsimp only at ha ⊢
      have hne : lines ≠ [] := by
        rintro rfl
        exact hl line rfl hk
      have hemp : lines.isEmpty = false := by simpa using hne
      split at ha
      · simp at ha
      · rw [hemp] at ha
        cases ha' : actual E o .code 0 0 lines with
        | none => rw [ha'] at ha; simp at ha
        | some out' =>
          rw [ha'] at ha
          simp only [Option.map_some, Option.some.injEq] at ha
          have := ih _ _ _ out' ha' hl'
          subst ha
          simp only [List.length_append, Bool.false_eq_true, if_false]
          refine ⟨by omega, fun h => ?_⟩
          rcases (hag h).2.2 hk with ⟨h1, h2⟩ | h'
          · rw [if_pos h1]; simp only [List.length_replicate]; omega
          · have := this.2 h'; omega

/-- The characters of a list of strings that are not whitespace. -/
def ink (E : Env α) (out : List (List α)) : List α := out.flatten.filter (fun c => !E.isSpace c)

theorem ink_append (a b : List (List α)) : ink E (a ++ b) = ink E a ++ ink E b := by simp [ink]

theorem ink_breaks (hnl : E.isSpace E.nl = true) (a : Kind) (n : Nat) (b : Kind) : ink E (breaks E a n b) = [] := by
  unfold breaks ink
  split <;> try simp [hnl]
  all_goals (split <;> simp [hnl])

theorem ink_kept (hnl : E.isSpace E.nl = true) (n : Nat) : ink E (List.replicate n [E.nl]) = [] := by
  simp [ink, hnl]

theorem ink_layout (hnl : E.isSpace E.nl = true) (htab : E.isSpace E.tab = true) (hsp : E.isSpace E.sp = true)
    (lines : List (List α)) : ∀ (prev : Kind) (blanks : Nat),
    ink E (layout E o prev blanks lines) = lines.flatten.filter (fun c => !E.isSpace c) := by
  induction lines with
  | nil => intro _ _; rfl
  | cons line lines ih =>
    intro prev blanks
    rw [layout, List.flatten_cons, List.filter_append]
    have he : ink E (elements E o line) = line.filter (fun c => !E.isSpace c) := filter_elements htab hsp line
    cases hk : kind E o line with
    | blank =>
      dsimp only
      rw [ih, ← he]
      simp [elements, hk, ink]
    | text => dsimp only; rw [ink_append, ink_append, ink_breaks hnl, ih, he]; rfl
    | code => dsimp only; rw [ink_append, ink_append, ink_breaks hnl, ih, he]; rfl

theorem ink_actual (hnl : E.isSpace E.nl = true) (htab : E.isSpace E.tab = true) (hsp : E.isSpace E.sp = true)
    (init : List (List α)) (last : List α) (hlast : kind E o last = .code) :
    ∀ (prev : Kind) (blanks kept : Nat) (out : List (List α)),
    actual E o prev blanks kept (init ++ [last]) = some out →
    ink E out = init.flatten.filter (fun c => !E.isSpace c) := by
  induction init with
  | nil =>
    intro prev blanks kept out h
    simp only [List.nil_append, actual, hlast] at h
    split at h
    · simp at h
    · simp only [List.isEmpty_nil, if_true, Option.map_some, Option.some.injEq] at h
      subst h
      rw [ink_append, ink_append, ink_append, ink_breaks hnl]
      split <;> simp [ink_kept hnl] <;> rfl
  | cons line init ih =>
    intro prev blanks kept out h
    have he : ink E (elements E o line) = line.filter (fun c => !E.isSpace c) := filter_elements htab hsp line
    rw [List.flatten_cons, List.filter_append]
    rw [List.cons_append, actual] at h
    cases hk : kind E o line with
    | blank =>
      rw [hk] at h
      rw [ih _ _ _ out h, ← he]
      simp [elements, hk, ink]
    | text =>
      rw [hk] at h
      dsimp only at h
      obtain ⟨out', h1, h2⟩ := Option.map_eq_some_iff.1 h
      subst h2
      rw [ink_append, ink_append, ink_breaks hnl, he, ih _ _ _ out' h1]; rfl
    | code =>
      rw [hk] at h
      dsimp only at h
      split at h
      · simp at h
      · obtain ⟨out', h1, h2⟩ := Option.map_eq_some_iff.1 h
        subst h2
        have hemp : (init ++ [last]).isEmpty = false := by simp
        rw [hemp, ink_append, ink_append, ink_append, ink_breaks hnl, ih _ _ _ out' h1]
        simp only [Bool.false_eq_true, if_false]
        rw [he]
        split
        · rw [ink_kept hnl]; rfl
        · rfl

/-- C53: exactly when split_text_with_code gives the layout (for a text whose columns can be counted): when no
code comes after text that comes after code, and the last line is not an unfinished line of code. -/
theorem C53_layout_iff (hnl : E.isSpace E.nl = true) (htab : E.isSpace E.tab = true) (hsp : E.isSpace E.sp = true)
    (hne : E.tab ≠ E.sp) (ht : 0 < o.tabWidth) (s : List α) (hc : ∀ l ∈ linesOf E.nl s, Countable E o l) :
    splitTextWithCode E o s =
        .ok (if layout E o .blank 0 (linesOf E.nl s) = [] then [[]] else layout E o .blank 0 (linesOf E.nl s)) ↔
      CodeAtMostOnce E o (linesOf E.nl s) ∧ ∀ l, (linesOf E.nl s).getLast? = some l → kind E o l ≠ .code := by
  constructor
  · intro h
    rw [C53_exact hnl htab hne ht s hc] at h
    cases ha : actual E o .blank 0 0 (linesOf E.nl s) with
    | none => rw [ha] at h; simp at h
    | some out =>
      rw [ha] at h
      simp only [Except.ok.injEq] at h
      have hlast : ∀ l, (linesOf E.nl s).getLast? = some l → kind E o l ≠ .code := by
        intro l hl hk
        obtain ⟨init, last, h1, h2⟩ := linesOf_spec E.nl s
        rw [h1] at ha h hl
        simp only [List.getLast?_append, List.getLast?_singleton, Option.some_or, Option.some.injEq] at hl
        subst hl
        have hL := ink_layout (E := E) (o := o) hnl htab hsp (init ++ [last]) .blank 0
        have hA := ink_actual hnl htab hsp init last hk _ _ _ out ha
        have hnb : last.filter (fun c => !E.isSpace c) ≠ [] := by
          intro h'
          rw [List.filter_eq_nil_iff] at h'
          have : kind E o last = .blank := kind_blank.2 (by
            rw [List.all_eq_true]; intro c hc; have := h' c hc; simpa using this)
          rw [this] at hk; simp at hk
        have hnorm : ∀ x : List (List α), ink E (if x = [] then [[]] else x) = ink E x := by
          intro x; split
          · rename_i hx; rw [hx]; rfl
          · rfl
        have := congrArg (ink E) h
        rw [hnorm, hnorm, hA, hL] at this
        simp at this
        exact hnb (by simpa using this)
      refine ⟨?_, hlast⟩
      by_cases hon : CodeAtMostOnce E o (linesOf E.nl s)
      · exact hon
      · exfalso
        have hlen := (actual_length (linesOf E.nl s) .blank 0 0 out ha hlast).2 (.inr (.inr hon))
        have hex : ∃ l ∈ linesOf E.nl s, kind E o l = .code := by
          unfold CodeAtMostOnce at hon
          simp only [Classical.not_not] at hon
          obtain ⟨a, b, c, h1, h2, _⟩ := hon
          exact ⟨a, h1.subset (by simp), h2⟩
        have hln := layout_ne_nil (E := E) (o := o) _ .blank 0 hex
        rw [if_neg hln] at h
        rw [if_neg (by rintro rfl; simp at hlen)] at h
        rw [h] at hlen
        omega
  · rintro ⟨h1, h2⟩
    exact C53_layout hnl htab hne ht s hc h1 h2

/-! ### examples -/

/-- For the examples: `actual` of the lines of a string. -/
def actualStr (s : String) : Option (List String) :=
  (actual ascii ⟨8, true, 4, true⟩ .blank 0 0 (linesOf '\n' s.toList)).map (·.map String.ofList)

/-- Code, text and code again, and a last line of code. -/
example : actualStr "    a = 1\n\ntext\nmore\n\n\n    b = 2\n    c = 3" =
    some ["    a = 1", "\n\n", "text", "more", "\n\n", "\n", "\n", "    b = 2", "\n"] := by decide +kernel

example : actualStr "    a = 1\n\ntext\n    b = 2\n" = none := by decide +kernel

end Big.Wrap
