import Verif.Wrap.SplitLemmas
/-! # Lemmas on split_text_with_code: lines -/
namespace Big.Wrap

variable {α : Type} [DecidableEq α]

/-! ### columns -/

/-- Only tabs and spaces. -/
def TabsSpaces (E : Env α) (s : List α) : Prop := ∀ c ∈ s, c = E.tab ∨ c = E.sp

theorem expandTabs_append (tab sp : α) (n col : Nat) (a b : List α) :
    expandTabs tab sp n col (a ++ b) =
      expandTabs tab sp n col a ++ expandTabs tab sp n (col + (expandTabs tab sp n col a).length) b := by
  induction a generalizing col with
  | nil => simp [expandTabs]
  | cons c a ih =>
    simp only [List.cons_append, expandTabs]
    split
    · rw [ih]; simp [Nat.add_assoc]
    · rw [ih]; simp [Nat.add_assoc, Nat.add_comm, Nat.add_left_comm]

theorem advance_eq (E : Env α) (o : Opt) (ht : 0 < o.tabWidth) (hne : E.tab ≠ E.sp) (col : Nat) (c : α)
    (h : c = E.tab ∨ c = E.sp) :
    advance E o col c = .ok (col + (expandTabs E.tab E.sp o.tabWidth col [c]).length) := by
  unfold advance
  have := Nat.mod_lt col ht
  by_cases hc : c = E.tab
  · rw [if_pos hc, if_neg (by omega)]
    simp only [expandTabs, if_pos hc, List.append_nil, List.length_replicate]
    congr 1; omega
  · rw [if_neg hc, if_pos (h.resolve_left hc)]
    simp [expandTabs, if_neg hc]

theorem advance_error (E : Env α) (o : Opt) (col : Nat) (c : α) (h : ¬ (c = E.tab ∨ c = E.sp)) :
    advance E o col c = .error .runtimeError := by
  simp only [not_or] at h
  unfold advance; rw [if_neg h.1, if_neg h.2]

theorem indentCol_eq (E : Env α) (o : Opt) (ht : 0 < o.tabWidth) (hne : E.tab ≠ E.sp) (l : List α) :
    ∀ col, TabsSpaces E l →
      indentCol E o col l = .ok (col + (expandTabs E.tab E.sp o.tabWidth col l).length) := by
  induction l with
  | nil => intro col _; rfl
  | cons c l ih =>
    intro col h
    unfold indentCol
    rw [advance_eq E o ht hne col c (h c (by simp))]
    dsimp only
    rw [ih _ (fun x hx => h x (by simp [hx]))]
    have := expandTabs_append E.tab E.sp o.tabWidth col [c] l
    simp only [List.singleton_append] at this
    rw [this, List.length_append, Nat.add_assoc]

theorem indentCol_error (E : Env α) (o : Opt) (l : List α) :
    ∀ col, ¬ TabsSpaces E l → ∃ e, indentCol E o col l = .error e := by
  induction l with
  | nil => intro col h; exact absurd (by intro c hc; simp at hc) h
  | cons c l ih =>
    intro col h
    unfold indentCol
    cases h1 : advance E o col c with
    | error e => exact ⟨e, rfl⟩
    | ok col' =>
      dsimp only
      apply ih
      intro h'
      apply h
      intro x hx
      rcases List.mem_cons.1 hx with rfl | hx
      · by_cases hd : x = E.tab ∨ x = E.sp
        · exact hd
        · rw [advance_error E o col x hd] at h1; simp at h1
      · exact h' x hx

/-- What a line of code shows, from column `col` on. -/
def shown (E : Env α) (o : Opt) (col : Nat) (s : List α) : List α :=
  if o.convertTabs then expandTabs E.tab E.sp o.tabWidth col s else s

/-- The width of `s` from column `col` on. -/
def width (E : Env α) (o : Opt) (col : Nat) (s : List α) : Nat := (expandTabs E.tab E.sp o.tabWidth col s).length

theorem width_append (E : Env α) (o : Opt) (col : Nat) (a b : List α) :
    width E o col (a ++ b) = width E o col a + width E o (col + width E o col a) b := by
  unfold width; rw [expandTabs_append, List.length_append]

theorem shown_append (E : Env α) (o : Opt) (col : Nat) (a b : List α) :
    shown E o col (a ++ b) = shown E o col a ++ shown E o (col + width E o col a) b := by
  unfold shown width
  split
  · exact expandTabs_append ..
  · rfl

theorem expandTabs_no_tab (tab sp : α) (n col : Nat) (w : List α) (h : tab ∉ w) :
    expandTabs tab sp n col w = w := by
  induction w generalizing col with
  | nil => rfl
  | cons c w ih =>
    simp only [List.mem_cons, not_or] at h
    unfold expandTabs
    rw [if_neg (fun h' => h.1 h'.symm), ih _ h.2]

theorem codeLeading_eq (E : Env α) (o : Opt) (ht : 0 < o.tabWidth) (hne : E.tab ≠ E.sp) (l : List α) :
    ∀ col, TabsSpaces E l → ∃ pieces, codeLeading E o col l = .ok (col + width E o col l, pieces) ∧
      pieces.flatten = shown E o col l := by
  induction l with
  | nil => intro col _; exact ⟨[], rfl, by simp [shown, expandTabs]⟩
  | cons c l ih =>
    intro col h
    obtain ⟨pieces, h1, h2⟩ := ih (col + width E o col [c]) (fun x hx => h x (by simp [hx]))
    unfold codeLeading
    rw [advance_eq E o ht hne col c (h c (by simp))]
    dsimp only
    unfold width at h1
    rw [h1]
    have h3 := width_append E o col [c] l
    have h4 := shown_append E o col [c] l
    simp only [List.singleton_append] at h3 h4
    refine ⟨_, by rw [h3, ← Nat.add_assoc]; rfl, ?_⟩
    rw [h4, List.flatten_cons, h2]
    congr 1
    unfold shown
    by_cases hc : c = E.tab
    · rw [if_pos hc]
      split
      · simp [expandTabs, if_pos hc]
      · rfl
    · rw [if_neg hc]; split <;> simp [expandTabs, if_neg hc]

theorem codeLeading_error (E : Env α) (o : Opt) (l : List α) :
    ∀ col, ¬ TabsSpaces E l → ∃ e, codeLeading E o col l = .error e := by
  induction l with
  | nil => intro col h; exact absurd (by intro c hc; simp at hc) h
  | cons c l ih =>
    intro col h
    unfold codeLeading
    cases h1 : advance E o col c with
    | error e => exact ⟨e, rfl⟩
    | ok col' =>
      dsimp only
      have : ¬ TabsSpaces E l := by
        intro h'
        apply h
        intro x hx
        rcases List.mem_cons.1 hx with rfl | hx
        · by_cases hd : x = E.tab ∨ x = E.sp
          · exact hd
          · rw [advance_error E o col x hd] at h1; simp at h1
        · exact h' x hx
      obtain ⟨e, he⟩ := ih col' this
      rw [he]; exact ⟨e, rfl⟩

/-! ### within a line -/

/-- The tokens of a line: whitespace and a word. -/
def Toks (E : Env α) (ts : List (List α × List α)) : Prop :=
  ∀ t ∈ ts, (∀ c ∈ t.1, E.isSpace c = true) ∧ t.2 ≠ [] ∧ ∀ c ∈ t.2, E.isSpace c = false

theorem word_ne_nl {E : Env α} (hnl : E.isSpace E.nl = true) {w : List α} (h : ∀ c ∈ w, E.isSpace c = false) :
    w ≠ [E.nl] := by
  rintro rfl
  have := h E.nl (by simp)
  rw [hnl] at this; simp at this

theorem callAll_text (E : Env α) (o : Opt) (hnl : E.isSpace E.nl = true) (ts : List (List α × List α)) :
    ∀ m : Splitter α, m.st = .inTextLine → Toks E ts →
      callAll E o m ts = .ok { m with words := m.words ++ ts.map (·.2) } := by
  induction ts with
  | nil => intro m _ _; simp [callAll]
  | cons t ts ih =>
    obtain ⟨l, w⟩ := t
    intro m hm ht
    obtain ⟨a, b, c, d, e, f, st⟩ := m
    simp only at hm
    subst hm
    unfold callAll call
    dsimp only
    unfold inTextLine
    rw [if_neg (word_ne_nl hnl (ht (l, w) (by simp)).2.2)]
    dsimp only
    rw [ih _ rfl (fun t h => ht t (by simp [h]))]
    simp

theorem callAll_code (E : Env α) (o : Opt) (hnl : E.isSpace E.nl = true) (htab : E.isSpace E.tab = true)
    (ht : 0 < o.tabWidth) (hne : E.tab ≠ E.sp) (ts : List (List α × List α)) :
    ∀ m : Splitter α, m.st = .inCodeLine → Toks E ts → (∀ t ∈ ts, TabsSpaces E t.1) →
      ∃ pieces col', callAll E o m ts = .ok { m with code := m.code ++ pieces, col := col' } ∧
        pieces.flatten = shown E o m.col (ts.flatMap (fun t => t.1 ++ t.2)) := by
  induction ts with
  | nil => intro m _ _ _; exact ⟨[], m.col, by simp [callAll], by simp [shown, expandTabs]⟩
  | cons t ts ih =>
    obtain ⟨l, w⟩ := t
    intro m hm htk hts
    obtain ⟨m1, m2, m3, m4, m5, m6, st⟩ := m
    simp only at hm
    subst hm
    have hw := htk (l, w) (by simp)
    dsimp only
    obtain ⟨pieces, h1, h2⟩ := codeLeading_eq E o ht hne l m6 (hts (l, w) (by simp))
    have hwt : E.tab ∉ w := fun h => by have := hw.2.2 _ h; rw [htab] at this; simp at this
    have hwid : ∀ c, width E o c w = w.length := by
      intro c; unfold width; rw [expandTabs_no_tab _ _ _ _ _ hwt]
    have hsh : ∀ c, shown E o c w = w := by
      intro c; unfold shown; rw [expandTabs_no_tab _ _ _ _ _ hwt]; simp
    obtain ⟨ps, col', h3, h4⟩ := ih ⟨m1, m2, m3, m4 ++ pieces ++ [w], m5, m6 + width E o m6 l + w.length, .inCodeLine⟩ rfl
      (fun t h => htk t (by simp [h])) (fun t h => hts t (by simp [h]))
    refine ⟨pieces ++ [w] ++ ps, col', ?_, ?_⟩
    · unfold callAll call
      dsimp only
      unfold inCodeLine
      rw [if_neg (word_ne_nl hnl hw.2.2), h1]
      dsimp only
      rw [h3]
      simp
    · simp only [List.flatten_append, List.flatten_cons, List.flatten_nil, List.append_nil, h2, h4, List.flatMap_cons]
      rw [shown_append, shown_append, hsh, width_append, hwid, Nat.add_assoc]

theorem callAll_code_error (E : Env α) (o : Opt) (hnl : E.isSpace E.nl = true) (ts : List (List α × List α)) :
    ∀ m : Splitter α, m.st = .inCodeLine → Toks E ts → ¬ (∀ t ∈ ts, TabsSpaces E t.1) →
      ∃ e, callAll E o m ts = .error e := by
  induction ts with
  | nil => intro m _ _ h; exact absurd (by simp) h
  | cons t ts ih =>
    obtain ⟨l, w⟩ := t
    intro m hm htk hts
    have hw := htk (l, w) (by simp)
    unfold callAll call
    rw [hm]
    dsimp only
    unfold inCodeLine
    rw [if_neg (word_ne_nl hnl hw.2.2)]
    cases h1 : codeLeading E o m.col l with
    | error e => exact ⟨e, rfl⟩
    | ok r =>
      dsimp only
      refine ih _ hm (fun t h => htk t (by simp [h])) ?_
      intro h
      apply hts
      intro t ht
      rcases List.mem_cons.1 ht with rfl | ht
      · by_cases hd : TabsSpaces E l
        · exact hd
        · obtain ⟨e, he⟩ := codeLeading_error E o l m.col hd
          rw [he] at h1; simp at h1
      · exact h t ht

/-! ### line by line -/

/-- What is known between two lines: the words so far, the kind of the last paragraph, whether a new
paragraph starts, and how many newlines are kept in `code`. -/
structure LState (α : Type) where
  words : List (List α)
  prev : Option Para
  start : Bool
  pend : Nat

/-- The splitter is between two lines. -/
structure Rel (E : Env α) (b : Splitter α) (L : LState α) : Prop where
  leading : b.leading = []
  word : b.word = []
  words : b.words = L.words
  prev : b.prev = L.prev
  code : b.code = List.replicate L.pend [E.nl]
  st : b.st = if L.start then .paragraphStart else .lineStart

/-- The words and the kind of the last paragraph when a line that is not blank starts. -/
def opened (E : Env α) (L : LState α) : List (List α) × Option Para :=
  if L.start then (if L.prev ≠ none then L.words ++ [[E.nl, E.nl]] else L.words, none) else (L.words, L.prev)

/-- The words before the line itself. -/
def before (E : Env α) (o : Opt) (L : LState α) (line : List α) : List (List α) :=
  match kind E o line with
  | .blank => L.words
  | .text => (opened E L).1 ++ (if (opened E L).2 = some .code then [[E.nl, E.nl]] else [])
  | .code => (opened E L).1 ++
      (if (opened E L).2 = some .text then [[E.nl, E.nl]] else List.replicate L.pend [E.nl])

/-- One line, ended by a newline. -/
def lineStep (E : Env α) (o : Opt) (L : LState α) (line : List α) : Except Err (LState α) :=
  match kind E o line with
  | .blank =>
    .ok (if L.start then L else if L.prev = some .code then { L with pend := L.pend + 1 } else { L with start := true })
  | .text => .ok ⟨before E o L line ++ elements E o line, some .text, false, L.pend⟩
  | .code =>
    if (opened E L).2 = some .text ∧ L.pend ≠ 0 then .error .assertionError
    else .ok ⟨before E o L line ++ elements E o line, some .code, false, 1⟩

theorem callAll_cons (E : Env α) (o : Opt) (m : Splitter α) (l w : List α) (ts : List (List α × List α)) :
    callAll E o m ((l, w) :: ts) = (call E o m l w).bind (fun m => callAll E o m ts) := by
  rw [callAll]
  cases call E o m l w <;> rfl

theorem lineToks_toks (E : Env α) (line : List α) : Toks E (lineToks E.isSpace [] [] line) :=
  lineToks_good E.isSpace [] [] line (by simp) (by simp)

theorem kind_blank {E : Env α} {o : Opt} {line : List α} :
    kind E o line = .blank ↔ line.all E.isSpace = true := by
  unfold kind
  by_cases h : line.all E.isSpace = true
  · rw [if_pos h]; simp [h]
  · rw [if_neg h]; split <;> simp [h]

theorem tabsSpaces_toks {E : Env α} {line : List α} :
    (∀ c ∈ rstrip E.isSpace line, E.isSpace c = true → c = E.tab ∨ c = E.sp) ↔
      ∀ t ∈ lineToks E.isSpace [] [] line, TabsSpaces E t.1 := by
  have h := lineToks_flatten E.isSpace [] [] line (by simp) (by simp)
  simp only [List.nil_append] at h
  rw [← h]
  have htk := lineToks_toks E line
  constructor
  · intro h1 t ht c hc
    exact h1 c (List.mem_flatMap.2 ⟨t, ht, by simp [hc]⟩) ((htk t ht).1 c hc)
  · intro h1 c hc hs
    obtain ⟨t, ht, h2⟩ := List.mem_flatMap.1 hc
    rcases List.mem_append.1 h2 with h3 | h3
    · exact h1 t ht c h3
    · have := (htk t ht).2.2 c h3; rw [hs] at this; simp at this

variable {E : Env α} {o : Opt}

/-- The first call on a line that is not blank. -/
theorem call_first (hnl : E.isSpace E.nl = true) {b : Splitter α} {L : LState α}
    (hR : Rel E b L) (l w : List α) (hw : ∀ c ∈ w, E.isSpace c = false) :
    ∃ b0 : Splitter α, b0.words = (opened E L).1 ∧ b0.prev = (opened E L).2 ∧ b0.code = b.code ∧
      b0.leading = [] ∧ b0.word = [] ∧ call E o b l w = lineStart E o b0 l w := by
  have hne := word_ne_nl hnl hw
  unfold call
  rw [hR.st]
  unfold opened
  by_cases hs : L.start = true
  · simp only [hs, if_true]
    unfold paragraphStart
    rw [if_neg hne]
    by_cases hp : L.prev ≠ none
    · have hp' : b.prev ≠ none := by rw [hR.prev]; exact hp
      rw [if_pos hp', if_pos hp]
      exact ⟨{ b with words := b.words ++ [[E.nl, E.nl]], prev := none, st := .lineStart }, by simp [hR.words], rfl, rfl,
        hR.leading, hR.word, rfl⟩
    · have hp' : ¬ b.prev ≠ none := by rw [hR.prev]; exact hp
      rw [if_neg hp', if_neg hp]
      have : L.prev = none := by simpa using hp
      exact ⟨{ b with st := .lineStart }, by simp [hR.words], by simp [hR.prev, this], rfl, hR.leading, hR.word, rfl⟩
  · simp only [hs]
    exact ⟨b, hR.words, hR.prev, rfl, hR.leading, hR.word, rfl⟩

/-- The calls for the tokens of a line that is not blank. -/
theorem callAll_line (hnl : E.isSpace E.nl = true) (htab : E.isSpace E.tab = true)
    (ht : 0 < o.tabWidth) (hne : E.tab ≠ E.sp) {b : Splitter α} {L : LState α} (hR : Rel E b L) (line : List α)
    (hc : Countable E o line) (hb : kind E o line ≠ .blank) :
    match kind E o line with
    | .blank => True
    | .text => ∃ m, callAll E o b (lineToks E.isSpace [] [] line) = .ok m ∧ m.st = .inTextLine ∧
        m.words = before E o L line ++ elements E o line ∧ m.prev = some .text ∧ m.code = b.code ∧
        m.leading = [] ∧ m.word = []
    | .code =>
        if (opened E L).2 = some .text ∧ L.pend ≠ 0 then
          callAll E o b (lineToks E.isSpace [] [] line) = .error .assertionError
        else ∃ m, callAll E o b (lineToks E.isSpace [] [] line) = .ok m ∧ m.st = .inCodeLine ∧
          m.words = before E o L line ∧ m.prev = some .code ∧ [m.code.flatten] = elements E o line ∧
          m.leading = [] ∧ m.word = [] := by
  have htk := lineToks_toks E line
  have hfl := lineToks_flatten E.isSpace [] [] line (by simp) (by simp)
  have hwords := lineToks_words E.isSpace [] [] line
  have htabs := @tabsSpaces_toks _ _ E line
  rcases lineToks_head E.isSpace [] line (by simp) with ⟨h1, h2⟩ | ⟨h1, w, ts, h2⟩
  · exact absurd (kind_blank.2 h1) hb
  rw [h2] at htk hfl hwords htabs ⊢
  simp only [List.nil_append] at *
  generalize hl : line.takeWhile E.isSpace = l at *
  have hw := htk (l, w) (by simp)
  have hts : Toks E ts := fun t h => htk t (by simp [h])
  obtain ⟨b0, k1, k2, k3, k4, k5, k6⟩ := call_first (o := o) hnl hR l w hw.2.2
  rw [callAll_cons, k6]
  unfold lineStart
  rw [if_neg (word_ne_nl hnl hw.2.2)]
  -- text
  have text : kind E o line = .text →
      ∃ m, (startText E b0 l w).bind (fun m => callAll E o m ts) = .ok m ∧
        m.st = .inTextLine ∧
        m.words = before E o L line ++ elements E o line ∧ m.prev = some .text ∧ m.code = b.code ∧
        m.leading = [] ∧ m.word = [] := by
    intro hk
    have hel : elements E o line = w :: ts.map (·.2) := by
      unfold elements; rw [hk]; dsimp only; rw [← hwords]; rfl
    unfold startText textLineStart inTextLine
    rw [if_neg (word_ne_nl hnl hw.2.2)]
    dsimp only [Except.bind]
    rw [callAll_text E o hnl ts _ rfl hts]
    refine ⟨_, rfl, rfl, ?_, rfl, ?_, ?_, ?_⟩
    · rw [hel]; unfold before; rw [hk]; dsimp only
      rw [k2, k1.symm]; split <;> simp
    all_goals (dsimp only; split <;> assumption)
  by_cases ha : o.allowCode = true
  · rw [if_pos ha]
    obtain ⟨c1, c2⟩ := hc ha hb
    rw [hl] at c1
    rw [indentCol_eq E o ht hne l 0 c1]
    dsimp only
    have hkind : kind E o line = if ((0 + (expandTabs E.tab E.sp o.tabWidth 0 l).length : Nat) : Int) ≥ o.codeIndent
        then .code else .text := by
      unfold kind; rw [if_neg (by rw [h1]; simp), hl, Nat.zero_add]
      simp [ha]
    by_cases hcol : ((0 + (expandTabs E.tab E.sp o.tabWidth 0 l).length : Nat) : Int) ≥ o.codeIndent
    · rw [if_pos hcol] at hkind ⊢
      rw [hkind]
      dsimp only
      have hel : elements E o line = [shown E o 0 (rstrip E.isSpace line)] := by
        unfold elements; rw [hkind]; rfl
      have hcode : ∀ m0 : Splitter α, m0.code = [] → m0.leading = [] → m0.word = [] → ∃ m : Splitter α,
          (codeLineStart E o m0 l w).bind (fun m => callAll E o m ts) = .ok m ∧
          m.st = .inCodeLine ∧ m.words = m0.words ∧ m.prev = some .code ∧ [m.code.flatten] = elements E o line ∧
          m.leading = [] ∧ m.word = [] := by
        intro m0 e1 e2 e3
        obtain ⟨pieces, col', g1, g2⟩ := callAll_code E o hnl htab ht hne ((l, w) :: ts)
          { m0 with prev := some .code, col := 0, st := .inCodeLine } rfl htk (htabs.1 (c2 hkind))
        have hun : (codeLineStart E o m0 l w).bind (fun m => callAll E o m ts) =
            callAll E o { m0 with prev := some .code, col := 0, st := .inCodeLine } ((l, w) :: ts) := by
          rw [callAll_cons]; rfl
        rw [hun, g1]
        refine ⟨_, rfl, rfl, rfl, rfl, ?_, e2, e3⟩
        dsimp only
        rw [e1, List.nil_append, g2, hel, hfl]
      unfold startCode
      by_cases hp : (opened E L).2 = some .text
      · rw [if_pos (k2.trans hp)]
        by_cases hq : L.pend ≠ 0
        · rw [if_pos ⟨hp, hq⟩, if_pos (by rw [k3, hR.code]; simpa using hq)]; rfl
        · have hq0 : L.pend = 0 := by simpa using hq
          rw [if_neg (fun h => hq h.2), if_neg (by rw [k3, hR.code]; simpa using hq)]
          obtain ⟨m, g1, g2, g3, g4, g5, g6⟩ := hcode
            { b0 with words := b0.words ++ [[E.nl, E.nl]], st := .codeLineStart } (by dsimp only; rw [k3, hR.code, hq0]; rfl) k4 k5
          refine ⟨m, g1, g2, ?_, g4, g5, g6⟩
          rw [g3]; unfold before; rw [hkind]; simp [hp, k1]
      · rw [if_neg (fun h => hp (k2.symm.trans h)), if_neg (fun h => hp h.1), k3, hR.code]
        obtain ⟨m, g1, g2, g3, g4, g5, g6⟩ := hcode
          { b0 with words := b0.words ++ (List.replicate L.pend [E.nl]).map (fun _ => [E.nl]), code := [], st := .codeLineStart }
          rfl k4 k5
        refine ⟨m, g1, g2, ?_, g4, g5, g6⟩
        rw [g3]; unfold before; rw [hkind]; simp [hp, k1]
    · rw [if_neg hcol] at hkind ⊢
      rw [hkind]
      exact text hkind
  · rw [if_neg ha]
    have hkind : kind E o line = .text := by
      unfold kind; rw [if_neg (by rw [h1]; simp), if_neg (fun h => ha h.1)]
    rw [hkind]
    exact text hkind

theorem callAll_blank (E : Env α) (o : Opt) (line : List α) (h : kind E o line = .blank) :
    lineToks E.isSpace [] [] line = [] := by
  rcases lineToks_head E.isSpace [] line (by simp) with ⟨h1, h2⟩ | ⟨h1, w, ts, h2⟩
  · exact h2
  · rw [kind_blank.1 h] at h1; simp at h1

/-- A line ended by a newline. -/
theorem step_line (hnl : E.isSpace E.nl = true) (htab : E.isSpace E.tab = true)
    (ht : 0 < o.tabWidth) (hne : E.tab ≠ E.sp) {b : Splitter α} {L : LState α} (hR : Rel E b L) (line : List α)
    (hn : E.nl ∉ line) (hc : Countable E o line) :
    (∃ e, writeAll E o b (line ++ [E.nl]) = .error e ∧ lineStep E o L line = .error e) ∨
    ∃ b' L', writeAll E o b (line ++ [E.nl]) = .ok b' ∧ lineStep E o L line = .ok L' ∧ Rel E b' L' := by
  rw [writeAll_line_nl E o hnl line b hn hR.leading hR.word, callAll_append]
  unfold lineStep
  cases hk : kind E o line with
  | blank =>
    right
    rw [callAll_blank E o line hk]
    simp only [callAll]
    unfold call
    rw [hR.st]
    by_cases hs : L.start = true
    · simp only [hs, if_true]
      unfold paragraphStart
      rw [if_pos rfl]
      exact ⟨b, L, rfl, rfl, hR⟩
    · simp only [hs]
      unfold lineStart
      rw [if_pos rfl]
      unfold lineStartNewline
      rw [hR.prev]
      by_cases hp : L.prev = some .code
      · rw [if_pos hp]
        refine ⟨_, _, rfl, rfl, ?_⟩
        simp only [if_pos hp, Bool.false_eq_true, if_false]
        exact ⟨hR.leading, hR.word, hR.words, rfl, by simp [hR.code, List.replicate_succ'], by simp [hR.st, hs]⟩
      · rw [if_neg hp]
        refine ⟨_, _, rfl, rfl, ?_⟩
        simp only [if_neg hp, Bool.false_eq_true, if_false]
        exact ⟨hR.leading, hR.word, hR.words, rfl, hR.code, rfl⟩
  | text =>
    right
    have := callAll_line hnl htab ht hne hR line hc (by rw [hk]; simp)
    rw [hk] at this
    obtain ⟨m, h1, h2, h3, h4, h5, h6, h7⟩ := this
    rw [h1]
    simp only [callAll]
    unfold call
    rw [h2]
    dsimp only
    unfold inTextLine
    rw [if_pos rfl]
    exact ⟨_, _, rfl, rfl, h6, h7, h3, h4, h5.trans hR.code, rfl⟩
  | code =>
    have := callAll_line hnl htab ht hne hR line hc (by rw [hk]; simp)
    rw [hk] at this
    dsimp only at this ⊢
    by_cases hq : (opened E L).2 = some .text ∧ L.pend ≠ 0
    · rw [if_pos hq] at this ⊢
      exact .inl ⟨_, by rw [this], rfl⟩
    · rw [if_neg hq] at this ⊢
      right
      obtain ⟨m, h1, h2, h3, h4, h5, h6, h7⟩ := this
      rw [h1]
      simp only [callAll]
      unfold call
      rw [h2]
      dsimp only
      unfold inCodeLine
      rw [if_pos rfl]
      unfold lineStartNewline
      dsimp only
      rw [if_pos h4]
      exact ⟨_, _, rfl, rfl, h6, h7, by simp [h3, h5], h4, rfl, rfl⟩

/-- All lines ended by a newline. -/
def stepLines (E : Env α) (o : Opt) : LState α → List (List α) → Except Err (LState α)
  | L, [] => .ok L
  | L, line :: lines =>
    match lineStep E o L line with
    | .error e => .error e
    | .ok L' => stepLines E o L' lines

theorem step_lines (hnl : E.isSpace E.nl = true) (htab : E.isSpace E.tab = true)
    (ht : 0 < o.tabWidth) (hne : E.tab ≠ E.sp) (lines : List (List α)) :
    ∀ {b : Splitter α} {L : LState α}, Rel E b L → (∀ l ∈ lines, E.nl ∉ l ∧ Countable E o l) →
    (∃ e, writeAll E o b (lines.flatMap (· ++ [E.nl])) = .error e ∧ stepLines E o L lines = .error e) ∨
    ∃ b' L', writeAll E o b (lines.flatMap (· ++ [E.nl])) = .ok b' ∧ stepLines E o L lines = .ok L' ∧ Rel E b' L' := by
  induction lines with
  | nil => intro b L hR _; exact .inr ⟨b, L, rfl, rfl, hR⟩
  | cons line lines ih =>
    intro b L hR hl
    have h1 := hl line (by simp)
    simp only [List.flatMap_cons]
    rw [writeAll_append]
    unfold stepLines
    rcases step_line hnl htab ht hne hR line h1.1 h1.2 with ⟨e, g1, g2⟩ | ⟨b', L', g1, g2, g3⟩
    · rw [g1, g2]; exact .inl ⟨e, rfl, rfl⟩
    · rw [g1, g2]
      exact ih g3 (fun l h => hl l (by simp [h]))

/-- The words at the end: the last line has no newline, so if it is code it is lost. -/
def finish (E : Env α) (o : Opt) (L : LState α) (last : List α) : Except Err (List (List α)) :=
  match kind E o last with
  | .blank => .ok L.words
  | .text => .ok (before E o L last ++ elements E o last)
  | .code => if (opened E L).2 = some .text ∧ L.pend ≠ 0 then .error .assertionError else .ok (before E o L last)

theorem step_last (hnl : E.isSpace E.nl = true) (htab : E.isSpace E.tab = true)
    (ht : 0 < o.tabWidth) (hne : E.tab ≠ E.sp) {b : Splitter α} {L : LState α} (hR : Rel E b L) (line : List α)
    (hn : E.nl ∉ line) (hc : Countable E o line) :
    (writeAll E o b line).bind (fun m => (close E o m).map (·.words)) = finish E o L line := by
  rw [writeAll_last E o line b hn hR.leading hR.word]
  unfold finish
  cases hk : kind E o line with
  | blank => rw [callAll_blank E o line hk]; simp [callAll, Except.map, hR.words]
  | text =>
    have := callAll_line hnl htab ht hne hR line hc (by rw [hk]; simp)
    rw [hk] at this
    obtain ⟨m, h1, h2, h3, h4, h5, h6, h7⟩ := this
    rw [h1]; simp [Except.map, h3]
  | code =>
    have := callAll_line hnl htab ht hne hR line hc (by rw [hk]; simp)
    rw [hk] at this
    dsimp only at this ⊢
    by_cases hq : (opened E L).2 = some .text ∧ L.pend ≠ 0
    · rw [if_pos hq] at this ⊢; rw [this]; rfl
    · rw [if_neg hq] at this ⊢
      obtain ⟨m, h1, h2, h3, h4, h5, h6, h7⟩ := this
      rw [h1]; simp [Except.map, h3]

/-- The state at the start. -/
def LState.init : LState α := ⟨[], none, true, 0⟩

/-- split_text_with_code, line by line. -/
def byLines (E : Env α) (o : Opt) (init : List (List α)) (last : List α) : Except Err (List (List α)) :=
  (stepLines E o LState.init init).bind (fun L => finish E o L last)

theorem split_eq (hnl : E.isSpace E.nl = true) (htab : E.isSpace E.tab = true)
    (ht : 0 < o.tabWidth) (hne : E.tab ≠ E.sp) (init : List (List α)) (last : List α)
    (hl : ∀ l ∈ init ++ [last], E.nl ∉ l ∧ Countable E o l) :
    splitTextWithCode E o (init.flatMap (· ++ [E.nl]) ++ last) =
      (byLines E o init last).map (fun w => if w = [] then [[]] else w) := by
  unfold splitTextWithCode byLines
  have hR : Rel E (newSplitter : Splitter α) LState.init := ⟨rfl, rfl, rfl, rfl, rfl, rfl⟩
  rw [writeAll_append]
  rcases step_lines hnl htab ht hne init hR (fun l h => hl l (by simp [h])) with ⟨e, h1, h2⟩ | ⟨b', L', h1, h2, h3⟩
  · rw [h1, h2]; rfl
  · rw [h1, h2]
    dsimp only [Except.bind]
    rw [← step_last hnl htab ht hne h3 last (hl last (by simp)).1 (hl last (by simp)).2]
    cases writeAll E o b' last with
    | error e => rfl
    | ok m =>
      dsimp only [Except.bind]
      cases close E o m <;> rfl

end Big.Wrap
