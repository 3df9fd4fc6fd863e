import Verif.Wrap.SplitExact
/-! # C134: splitting wrapped text gives the words back -/
namespace Big.Wrap

variable {α : Type} [DecidableEq α] {E : Env α} {o : Opt}

/-! ### lines of text and lines of code that are as split_text_with_code gives them -/

/-- A line of text with no indent. -/
def TextLine (E : Env α) (o : Opt) (l : List α) : Prop :=
  (∃ c r, l = c :: r ∧ E.isSpace c = false) ∧ ¬ (o.allowCode = true ∧ (0 : Int) ≥ o.codeIndent) ∧ E.nl ∉ l

/-- A word of a text. -/
def TextWord (E : Env α) (o : Opt) (w : List α) : Prop :=
  w ≠ [] ∧ (∀ c ∈ w, E.isSpace c = false) ∧ ¬ (o.allowCode = true ∧ (0 : Int) ≥ o.codeIndent)

/-- An element for a line of code. -/
def CodeLine (E : Env α) (o : Opt) (l : List α) : Prop :=
  kind E o l = .code ∧ codeText E o l = l ∧ Countable E o l ∧ E.nl ∉ l

theorem TextWord.line (hnl : E.isSpace E.nl = true) {w : List α} (h : TextWord E o w) : TextLine E o w := by
  obtain ⟨h1, h2, h3⟩ := h
  refine ⟨?_, h3, ?_⟩
  · cases w with
    | nil => exact absurd rfl h1
    | cons c r => exact ⟨c, r, rfl, h2 c (by simp)⟩
  · intro h; rw [h2 _ h] at hnl; simp at hnl

theorem TextLine.kind {l : List α} (h : TextLine E o l) : kind E o l = .text := by
  obtain ⟨⟨c, r, rfl, hc⟩, h3, _⟩ := h
  unfold Wrap.kind
  rw [if_neg (by simp [hc]), if_neg]
  rintro ⟨ha, hb⟩
  rw [List.takeWhile_cons_of_neg (by simp [hc])] at hb
  exact h3 ⟨ha, by simpa [expandTabs] using hb⟩

theorem TextLine.countable {l : List α} (h : TextLine E o l) : Countable E o l := by
  intro _ _
  have hk := h.kind
  obtain ⟨⟨c, r, rfl, hc⟩, _, _⟩ := h
  refine ⟨?_, fun hk' => ?_⟩
  · rw [List.takeWhile_cons_of_neg (by simp [hc])]; simp
  · rw [hk] at hk'; simp at hk'

theorem mem_expandTabs {tab sp : α} {n col : Nat} {s : List α} {c : α} (h : c ∈ expandTabs tab sp n col s) :
    c = sp ∨ (c ∈ s ∧ c ≠ tab) := by
  induction s generalizing col with
  | nil => simp [expandTabs] at h
  | cons d s ih =>
    unfold expandTabs at h
    split at h
    · rcases List.mem_append.1 h with h | h
      · exact .inl (List.eq_of_mem_replicate h)
      · rcases ih h with h | h
        · exact .inl h
        · exact .inr ⟨by simp [h.1], h.2⟩
    · rcases List.mem_cons.1 h with h' | h'
      · subst h'; exact .inr ⟨by simp, by assumption⟩
      · rcases ih h' with h | h
        · exact .inl h
        · exact .inr ⟨by simp [h.1], h.2⟩

omit [DecidableEq α] in
theorem dropWhile_twice (p : α → Bool) (l : List α) : (l.dropWhile p).dropWhile p = l.dropWhile p := by
  induction l with
  | nil => rfl
  | cons c l ih =>
    rw [List.dropWhile_cons]
    split
    · exact ih
    · rename_i h; rw [List.dropWhile_cons, if_neg h]

/-- A line that is not blank: its indent, and after it what is not whitespace at the end. -/
theorem nonblank_split (isSpace : α → Bool) (line : List α) (h : line.all isSpace = false) :
    ∃ z r, isSpace z = false ∧ rstrip isSpace line = line.takeWhile isSpace ++ z :: r ∧
      rstrip isSpace (z :: r) = z :: r := by
  have h1 : line.takeWhile isSpace ++ line.dropWhile isSpace = line := List.takeWhile_append_dropWhile
  cases hd : line.dropWhile isSpace with
  | nil =>
    rw [dropWhile_nil_iff] at hd
    simp [List.all_eq_false] at h
    obtain ⟨x, hx, hx2⟩ := h
    rw [hd x hx] at hx2; simp at hx2
  | cons z t =>
    have hz : isSpace z = false := by
      have := List.head_dropWhile_not isSpace (l := line) (by rw [hd]; simp)
      simpa [hd] using this
    have h2 : rstrip isSpace (z :: t) = z :: rstrip isSpace t := by
      have := rstrip_append isSpace [z] t
      simp only [List.singleton_append] at this
      rw [this]
      split
      · rename_i h; rw [h]
        have := rstrip_nonspace (isSpace := isSpace) (a := []) (w := [z]) (by simpa using hz) (by simp)
        simpa using this
      · rfl
    have hrr : ∀ x : List α, rstrip isSpace (rstrip isSpace x) = rstrip isSpace x := by
      intro x
      unfold rstrip
      rw [List.reverse_reverse, dropWhile_twice]
    refine ⟨z, rstrip isSpace t, hz, ?_, ?_⟩
    · rw [← h1, rstrip_append_of_ne _ (by rw [hd, h2]; simp), hd, h2, List.takeWhile_append_of_pos, 
        List.takeWhile_cons_of_neg (by simp [hz]), List.append_nil]
      intro a ha
      exact List.all_takeWhile (p := isSpace) (l := line) |> List.all_eq_true.1 |> fun f => f a ha
    · rw [← h2, hrr]

/-- The element for a line of code is, as a line, the same line of code. -/
theorem codeText_line (hnl : E.isSpace E.nl = true) (htab : E.isSpace E.tab = true) (hsp : E.isSpace E.sp = true)
    (hne : E.tab ≠ E.sp) (hnn : E.sp ≠ E.nl) {line : List α}
    (hk : kind E o line = .code) (hc : Countable E o line) (hno : E.nl ∉ line) :
    CodeLine E o (codeText E o line) := by
  have hall : line.all E.isSpace = false := by
    cases h : line.all E.isSpace with
    | false => rfl
    | true => unfold kind at hk; rw [if_pos h] at hk; simp at hk
  have hkc : o.allowCode = true ∧
      ((expandTabs E.tab E.sp o.tabWidth 0 (line.takeWhile E.isSpace)).length : Int) ≥ o.codeIndent := by
    unfold kind at hk
    rw [if_neg (by simp [hall])] at hk
    split at hk
    · assumption
    · simp at hk
  obtain ⟨z, r, hz, hr, hzr⟩ := nonblank_split E.isSpace line hall
  have hlead : ∀ c ∈ line.takeWhile E.isSpace, E.isSpace c = true := fun a ha =>
    List.all_eq_true.1 (List.all_takeWhile (p := E.isSpace) (l := line)) a ha
  have hcount := hc hkc.1 (by rw [hk]; simp)
  have hcode := hcount.2 hk
  -- a line made of an indent of whitespace and `z :: r'`
  have key : ∀ (a r' : List α), (∀ c ∈ a, E.isSpace c = true) → rstrip E.isSpace (z :: r') = z :: r' →
      (expandTabs E.tab E.sp o.tabWidth 0 a).length = (expandTabs E.tab E.sp o.tabWidth 0 (line.takeWhile E.isSpace)).length →
      (∀ c ∈ a ++ z :: r', E.isSpace c = true → c = E.tab ∨ c = E.sp) → E.nl ∉ a ++ z :: r' →
      (o.convertTabs = true → E.tab ∉ a ++ z :: r') →
      CodeLine E o (a ++ z :: r') := by
    intro a r' ha hr' hlen hts hnl' htabs
    have htw : (a ++ z :: r').takeWhile E.isSpace = a := by
      rw [List.takeWhile_append_of_pos ha, List.takeWhile_cons_of_neg (by simp [hz]), List.append_nil]
    have hrs : rstrip E.isSpace (a ++ z :: r') = a ++ z :: r' := by
      rw [rstrip_append_of_ne _ (by rw [hr']; simp), hr']
    have hkind : kind E o (a ++ z :: r') = .code := by
      unfold kind
      rw [if_neg (by simp [hz]), if_pos]
      rw [htw, hlen]; exact hkc
    refine ⟨hkind, ?_, ?_, hnl'⟩
    · unfold codeText
      rw [hrs]
      split
      · rename_i h; exact expandTabs_no_tab _ _ _ _ _ (htabs h)
      · rfl
    · intro _ _
      rw [htw, hrs]
      exact ⟨fun c hc => hts c (by simp [hc]) (ha c hc), fun _ => hts⟩
  unfold codeText
  have hnr : E.nl ∉ rstrip E.isSpace line := by
    intro h; rcases hcode _ h hnl with h' | h'
    · apply hno
      have : line.takeWhile E.isSpace ++ line.dropWhile E.isSpace = line := List.takeWhile_append_dropWhile
      unfold rstrip at h
      rw [List.mem_reverse] at h
      have := (List.dropWhile_sublist (l := line.reverse) E.isSpace).subset h
      simpa using this
    · exact hnn h'.symm
  rw [hr] at hcode hnr
  rw [hr]
  split
  · rename_i hct
    have hmem : ∀ c ∈ expandTabs E.tab E.sp o.tabWidth 0 (line.takeWhile E.isSpace ++ z :: r),
        c = E.sp ∨ (c ∈ line.takeWhile E.isSpace ++ z :: r ∧ c ≠ E.tab) := fun c hc => mem_expandTabs hc
    have hzt : z ≠ E.tab := by rintro rfl; rw [htab] at hz; simp at hz
    have he : ∀ col, expandTabs E.tab E.sp o.tabWidth col (z :: r) =
        z :: expandTabs E.tab E.sp o.tabWidth (col + 1) r := by
      intro col; conv => lhs; unfold expandTabs
      rw [if_neg hzt]
    rw [expandTabs_append, he] at hmem ⊢
    refine key _ _ ?_ ?_ ?_ ?_ ?_ ?_
    · intro c hc
      rcases mem_expandTabs hc with h | h
      · rw [h]; exact hsp
      · exact hlead c h.1
    · rw [← he]
      generalize 0 + (expandTabs E.tab E.sp o.tabWidth 0 (List.takeWhile E.isSpace line)).length = col
      rcases List.eq_nil_or_concat (z :: r) with h | ⟨y, x, h⟩
      · simp at h
      · rw [List.concat_eq_append] at h
        rw [h] at hzr ⊢
        have hx : E.isSpace x = false := by
          cases hx : E.isSpace x with
          | false => rfl
          | true =>
            rw [rstrip_append, if_pos (rstrip_of_all (by simpa using hx))] at hzr
            have h1 : (rstrip E.isSpace y).length ≤ y.length := by
              unfold rstrip
              rw [List.length_reverse]
              have := (List.dropWhile_sublist (l := y.reverse) E.isSpace).length_le
              simpa using this
            rw [hzr] at h1; simp at h1
            omega
        rw [expandTabs_append]
        have : ∀ c, expandTabs E.tab E.sp o.tabWidth c [x] = [x] := by
          intro c; apply expandTabs_no_tab
          simp only [List.mem_singleton]; rintro rfl; rw [htab] at hx; simp at hx
        rw [this]
        exact rstrip_nonspace (by simpa using hx) (by simp)
    · rw [expandTabs_no_tab]
      intro h
      rcases mem_expandTabs h with h | h
      · exact hne h
      · exact h.2 rfl
    · intro c hc hs
      rcases hmem c hc with h | h
      · exact .inr h
      · exact hcode c h.1 hs
    · intro h
      rcases hmem _ h with h | h
      · exact hnn h.symm
      · exact hnr h.1
    · intro _ h
      rcases hmem _ h with h | h
      · exact hne h
      · exact h.2 rfl
  · rename_i hct
    exact key _ _ hlead hzr rfl hcode hnr (fun h => absurd h hct)

/-! ### the words of a text -/

/-- What split_text_with_code gives after a line of kind `k` (`blank`: at the start), `b` says whether there
has been code; the last line is of kind `e`. -/
inductive Form (E : Env α) (o : Opt) (e : Kind) : Kind → Bool → List (List α) → Prop
  | done (b : Bool) : Form E o e e b []
  | first {b : Bool} {w : List α} {W : List (List α)} :
      TextWord E o w → Form E o e .text b W → Form E o e .blank b (w :: W)
  | word {b : Bool} {w : List α} {W : List (List α)} :
      TextWord E o w → Form E o e .text b W → Form E o e .text b (w :: W)
  | para {b : Bool} {w : List α} {W : List (List α)} :
      TextWord E o w → Form E o e .text b W → Form E o e .text b ([E.nl, E.nl] :: w :: W)
  | textAfterCode {w : List α} {W : List (List α)} :
      TextWord E o w → Form E o e .text true W → Form E o e .code true ([E.nl, E.nl] :: w :: W)
  | firstCode {c : List α} {W : List (List α)} :
      CodeLine E o c → Form E o e .code true W → Form E o e .blank false (c :: W)
  | codeAfterText {c : List α} {W : List (List α)} :
      CodeLine E o c → Form E o e .code true W → Form E o e .text false ([E.nl, E.nl] :: c :: W)
  | code (n : Nat) {c : List α} {W : List (List α)} :
      CodeLine E o c → Form E o e .code true W →
      Form E o e .code true (List.replicate (n + 1) [E.nl] ++ c :: W)

/-- Lines that split_text_with_code can split, after a line of kind `k`, with `b` as in `Form`. -/
def Good (E : Env α) (o : Opt) : Kind → Bool → List (List α) → Prop
  | _, _, [] => True
  | k, b, l :: ls => Countable E o l ∧
      match kind E o l with
      | .blank => Good E o k b ls
      | .text => Good E o .text b ls
      | .code => (k = .code ∨ b = false) ∧ Good E o .code true ls

/-- The kind of the last line that is not blank. -/
def lastKind (E : Env α) (o : Opt) : Kind → List (List α) → Kind
  | k, [] => k
  | k, l :: ls => lastKind E o (if kind E o l = .blank then k else kind E o l) ls

theorem linesOf_nls (nl : α) (n : Nat) (s : List α) :
    linesOf nl (List.replicate n nl ++ s) = List.replicate n [] ++ linesOf nl s := by
  induction n with
  | zero => rfl
  | succ n ih => simp only [List.replicate_succ, List.cons_append, linesOf, if_true, ih]

theorem kind_nil : kind E o [] = .blank := by simp [kind]

theorem countable_nil : Countable E o [] := by
  intro _ h; rw [kind_nil] at h; exact absurd rfl h

theorem layout_nils (n : Nat) (prev : Kind) (b : Nat) (ls : List (List α)) :
    layout E o prev b (List.replicate n [] ++ ls) = layout E o prev (b + n) ls := by
  induction n generalizing b with
  | zero => rfl
  | succ n ih =>
    simp only [List.replicate_succ, List.cons_append, layout, kind_nil, ih]
    congr 1; omega

theorem good_nils (n : Nat) (k : Kind) (b : Bool) (ls : List (List α)) :
    Good E o k b (List.replicate n [] ++ ls) ↔ Good E o k b ls := by
  induction n with
  | zero => simp
  | succ n ih =>
    simp only [List.replicate_succ, List.cons_append, Good, kind_nil, ih, countable_nil, true_and]

theorem lastKind_nils (n : Nat) (k : Kind) (ls : List (List α)) :
    lastKind E o k (List.replicate n [] ++ ls) = lastKind E o k ls := by
  induction n with
  | zero => simp
  | succ n ih =>
    simp only [List.replicate_succ, List.cons_append, lastKind, kind_nil, ih, if_true]

theorem splitWords_snoc (isSpace : α → Bool) (sp w : List α) (hsp : ∀ c ∈ sp, isSpace c = true) (h0 : sp ≠ [])
    (hw : ∀ c ∈ w, isSpace c = false) (hw0 : w ≠ []) (word line : List α) :
    splitWords isSpace word (line ++ sp ++ w) = splitWords isSpace word line ++ [w] := by
  have h3 : ∀ (w u : List α), (∀ c ∈ w, isSpace c = false) → u ++ w ≠ [] → splitWords isSpace u w = [u ++ w] := by
    intro w
    induction w with
    | nil => intro u _ h; simp only [List.append_nil] at h; simp [splitWords, h]
    | cons c w ih =>
      intro u h hne
      rw [splitWords, if_neg (by simp [h c]), ih _ (fun x hx => h x (by simp [hx])) (by simp)]
      simp
  have h2 : ∀ (sp word : List α), (∀ c ∈ sp, isSpace c = true) → sp ≠ [] →
      splitWords isSpace word (sp ++ w) = (if word = [] then [] else [word]) ++ [w] := by
    intro sp
    induction sp with
    | nil => intro _ _ h; exact absurd rfl h
    | cons c sp ih =>
      intro word hs _
      rw [List.cons_append, splitWords, if_pos (hs c (by simp))]
      by_cases h : sp = []
      · subst h; rw [List.nil_append, h3 w [] hw (by simpa using hw0)]; rfl
      · rw [ih [] (fun x hx => hs x (by simp [hx])) h]; simp
  induction line generalizing word with
  | nil => simp only [List.nil_append]; rw [h2 sp word hsp h0, splitWords]
  | cons c line ih =>
    simp only [List.cons_append, splitWords]
    split
    · rw [ih]; simp
    · rw [ih]

theorem splitWords_word (isSpace : α → Bool) (w : List α) (hw : ∀ c ∈ w, isSpace c = false) (hw0 : w ≠ []) :
    splitWords isSpace [] w = [w] := by
  have h3 : ∀ (w u : List α), (∀ c ∈ w, isSpace c = false) → u ++ w ≠ [] → splitWords isSpace u w = [u ++ w] := by
    intro w
    induction w with
    | nil => intro u _ h; simp only [List.append_nil] at h; simp [splitWords, h]
    | cons c w ih =>
      intro u h hne
      rw [splitWords, if_neg (by simp [h c]), ih _ (fun x hx => h x (by simp [hx])) (by simp)]
      simp
  simpa using h3 w [] hw (by simpa using hw0)

/-- `wrapLoop` at a word that starts a line. -/
theorem wrapLoop_fresh (two : Bool) (margin : Int) (last w : List α) (W : List (List α)) (h : isSpaceWord E w = false) :
    (wrapLoop E two margin 0 last (w :: W)).flatten = w ++ (wrapLoop E two margin w.length w W).flatten := by
  conv => lhs; unfold wrapLoop
  rw [if_neg (by simp [h])]
  simp

theorem wrapLoop_break (two : Bool) (margin : Int) (col : Nat) (last w : List α) (W : List (List α)) (h : isSpaceWord E w = true) :
    (wrapLoop E two margin col last (w :: W)).flatten = w ++ (wrapLoop E two margin 0 w W).flatten := by
  conv => lhs; unfold wrapLoop
  rw [if_pos h]
  simp

theorem wrapLoop_nls (hnl : E.isSpace E.nl = true) (two : Bool) (margin : Int) (n : Nat) (w : List α) (W : List (List α))
    (h : isSpaceWord E w = false) : ∀ (col : Nat) (last : List α),
    (wrapLoop E two margin col last (List.replicate (n + 1) [E.nl] ++ w :: W)).flatten =
      List.replicate (n + 1) E.nl ++ (w ++ (wrapLoop E two margin w.length w W).flatten) := by
  have hs : isSpaceWord E [E.nl] = true := by simp [isSpaceWord, hnl]
  induction n with
  | zero =>
    intro col last
    simp only [Nat.zero_add, List.replicate_succ, List.replicate_zero, List.cons_append, List.nil_append]
    rw [wrapLoop_break _ _ _ _ _ _ hs, wrapLoop_fresh _ _ _ _ _ h]; rfl
  | succ n ih =>
    intro col last
    rw [List.replicate_succ, List.cons_append, wrapLoop_break _ _ _ _ _ _ hs, ih, List.replicate_succ (n := n + 1)]
    rfl

theorem TextLine.notSpace {l : List α} (h : TextLine E o l) : isSpaceWord E l = false := by
  obtain ⟨⟨c, r, rfl, hc⟩, _⟩ := h
  simp [isSpaceWord, hc]

theorem CodeLine.notSpace {l : List α} (h : CodeLine E o l) : isSpaceWord E l = false := by
  have hk := h.1
  unfold kind at hk
  by_cases h' : l.all E.isSpace = true
  · rw [if_pos h'] at hk; simp at hk
  · simp [isSpaceWord, h']

/-- What the lines of the wrapped text are like: `L` follows a line of kind `prev`, `bl` blank lines after
it; it starts with a line of kind `k` that has elements `els`, and then the words `W` come. -/
structure Lines (E : Env α) (o : Opt) (e k : Kind) (b : Bool) (els W L : List (List α)) : Prop where
  lay : ∀ prev bl, layout E o prev bl L = breaks E prev bl k ++ els ++ W
  good : ∀ prev b', (k = .code → (prev = .code ∨ b' = false) ∧ b = true) → (k = .text → b = b') → Good E o prev b' L
  kinds : ∀ prev, lastKind E o prev L = e

theorem Lines.cons_text {e k : Kind} {b : Bool} {els W L : List (List α)} {cur : List α} (n : Nat)
    (hcur : TextLine E o cur) (hk : k ≠ .blank) (hb : k = .code → b = true)
    (h : Lines E o e k b els W L) (b0 : Bool) (hb0 : if k = .code then b0 = false else b0 = b) :
    Lines E o e .text b0 (splitWords E.isSpace [] cur) (breaks E .text n k ++ els ++ W)
      (cur :: (List.replicate n [] ++ L)) := by
  refine ⟨?_, ?_, ?_⟩
  · intro prev bl
    have he : elements E o cur = splitWords E.isSpace [] cur := by unfold elements; rw [hcur.kind]
    simp only [layout, hcur.kind]
    rw [layout_nils, he, h.lay, Nat.zero_add, List.append_assoc]
  · intro prev b' _ hb'
    have hb' := hb' rfl
    subst hb'
    simp only [Good, hcur.kind]
    refine ⟨hcur.countable, ?_⟩
    rw [good_nils]
    refine h.good _ _ ?_ ?_
    · intro hk'; rw [if_pos hk'] at hb0; exact ⟨.inr hb0, hb hk'⟩
    · intro hk'; rw [if_neg (by rw [hk']; simp)] at hb0; exact hb0.symm
  · intro prev
    simp only [lastKind, hcur.kind]
    rw [lastKind_nils, h.kinds]

theorem Lines.cons_code {e k : Kind} {b : Bool} {els W L : List (List α)} {cur : List α} (n : Nat)
    (hcur : CodeLine E o cur) (hk : k ≠ .blank) (hb : b = true)
    (h : Lines E o e k b els W L) :
    Lines E o e .code true [cur] (breaks E .code n k ++ els ++ W)
      (cur :: (List.replicate n [] ++ L)) := by
  refine ⟨?_, ?_, ?_⟩
  · intro prev bl
    have he : elements E o cur = [cur] := by unfold elements; rw [hcur.1]; simp only; rw [hcur.2.1]
    simp only [layout, hcur.1]
    rw [layout_nils, he, h.lay, Nat.zero_add, List.append_assoc]
  · intro prev b' hb' _
    simp only [Good, hcur.1]
    refine ⟨hcur.2.2.1, (hb' rfl).1, ?_⟩
    rw [good_nils]
    exact h.good _ _ (fun _ => ⟨.inl rfl, hb⟩) (fun _ => hb)
  · intro prev
    simp only [lastKind, hcur.1]
    rw [lastKind_nils, h.kinds]

theorem reflow_lines (hnl : E.isSpace E.nl = true) (hsp : E.isSpace E.sp = true) (hnn : E.sp ≠ E.nl) (two : Bool) (margin : Int)
    {e k : Kind} {b : Bool} {W : List (List α)} (hF : Form E o e k b W) :
    (k = .text → ∀ cur last, TextLine E o cur →
      Lines E o e .text b (splitWords E.isSpace [] cur) W
        (linesOf E.nl (cur ++ (wrapLoop E two margin cur.length last W).flatten))) ∧
    (k = .code → ∀ cur last, CodeLine E o cur →
      Lines E o e .code true [cur] W
        (linesOf E.nl (cur ++ (wrapLoop E two margin cur.length last W).flatten))) := by
  have hss : isSpaceWord E [E.nl, E.nl] = true := by simp [isSpaceWord, hnl]
  have l2 : ∀ (cur s : List α), E.nl ∉ cur →
      linesOf E.nl (cur ++ ([E.nl, E.nl] ++ s)) = cur :: (List.replicate 1 [] ++ linesOf E.nl s) := by
    intro cur s h
    rw [show cur ++ ([E.nl, E.nl] ++ s) = cur ++ E.nl :: (List.replicate 1 E.nl ++ s) by rfl,
      linesOf_append_nl _ _ _ h, linesOf_nls]
  induction hF with
  | done b =>
    refine ⟨?_, ?_⟩
    · rintro rfl cur last hcur
      simp only [wrapLoop, List.flatten_nil, List.append_nil]
      rw [linesOf_of_not_mem _ _ hcur.2.2]
      refine ⟨?_, ?_, ?_⟩
      · intro prev bl
        have he : elements E o cur = splitWords E.isSpace [] cur := by unfold elements; rw [hcur.kind]
        simp only [layout, hcur.kind]; rw [he]
      · intro prev b' _ _; simp only [Good, hcur.kind]; exact ⟨hcur.countable, trivial⟩
      · intro prev; simp only [lastKind, hcur.kind]; simp
    · rintro rfl cur last hcur
      simp only [wrapLoop, List.flatten_nil, List.append_nil]
      rw [linesOf_of_not_mem _ _ hcur.2.2.2]
      refine ⟨?_, ?_, ?_⟩
      · intro prev bl
        have he : elements E o cur = [cur] := by unfold elements; rw [hcur.1]; simp only; rw [hcur.2.1]
        simp only [layout, hcur.1]; rw [he]
      · intro prev b' h _; simp only [Good, hcur.1]; exact ⟨hcur.2.2.1, (h rfl).1, trivial⟩
      · intro prev; simp only [lastKind, hcur.1]; simp
  | first hw hF ih => exact ⟨by intro h; simp at h, by intro h; simp at h⟩
  | firstCode hw hF ih => exact ⟨by intro h; simp at h, by intro h; simp at h⟩
  | @word b w W hw hF ih =>
    refine ⟨?_, by intro h; simp at h⟩
    rintro - cur last hcur
    have hwl := hw.line hnl
    unfold wrapLoop
    rw [if_neg (by simp [hwl.notSpace])]
    dsimp only
    have hgap : ∃ space : List α, (if (two && endsSentence E last) = true then [E.sp, E.sp] else [E.sp]) = space ∧
        (if (two && endsSentence E last) = true then 2 else 1) = space.length ∧ (∀ c ∈ space, c = E.sp) ∧ space ≠ [] := by
      refine ⟨_, rfl, ?_, ?_, ?_⟩ <;> split <;> simp
    obtain ⟨space, g1, g2, g3, g4⟩ := hgap
    rw [g1, g2]
    have hc0 : cur.length ≠ 0 := by
      obtain ⟨⟨c, r, rfl, _⟩, _⟩ := hcur; simp
    rw [if_pos hc0, if_pos hc0]
    split
    · simp only [List.flatten_cons, List.singleton_append]
      rw [linesOf_append_nl _ _ _ hcur.2.2]
      have h1 := (ih.1 rfl w w hwl)
      have h2 := h1.cons_text 0 hcur (by simp) (by simp) b (by simp)
      rw [splitWords_word _ _ hw.2.1 hw.1] at h2
      simpa [breaks] using h2
    · have h1 := ih.1 rfl (cur ++ space ++ w) w ?_
      · rw [splitWords_snoc _ _ _ (fun c hc => by rw [g3 c hc]; exact hsp) g4 hw.2.1 hw.1] at h1
        simp only [List.flatten_cons]
        simp only [List.length_append, List.append_assoc] at h1
        rw [Nat.add_assoc]
        refine ⟨?_, h1.good, h1.kinds⟩
        intro prev bl
        rw [h1.lay]
        simp
      · obtain ⟨⟨c, r, h1, h2⟩, h3, h4⟩ := hcur
        refine ⟨⟨c, r ++ space ++ w, by rw [h1]; simp, h2⟩, h3, ?_⟩
        intro h
        simp only [List.mem_append] at h
        rcases h with (h | h) | h
        · exact h4 h
        · exact hnn (g3 _ h).symm
        · exact hwl.2.2 h
  | @para b w W hw hF ih =>
    refine ⟨?_, by intro h; simp at h⟩
    rintro - cur last hcur
    have hwl := hw.line hnl
    rw [wrapLoop_break _ _ _ _ _ _ hss, wrapLoop_fresh _ _ _ _ _ hwl.notSpace, l2 _ _ hcur.2.2]
    have h2 := (ih.1 rfl w w hwl).cons_text 1 hcur (by simp) (by simp) b (by simp)
    rw [splitWords_word _ _ hw.2.1 hw.1] at h2
    exact h2
  | @textAfterCode w W hw hF ih =>
    refine ⟨by intro h; simp at h, ?_⟩
    rintro - cur last hcur
    have hwl := hw.line hnl
    rw [wrapLoop_break _ _ _ _ _ _ hss, wrapLoop_fresh _ _ _ _ _ hwl.notSpace, l2 _ _ hcur.2.2.2]
    have h2 := (ih.1 rfl w w hwl).cons_code 1 hcur (by simp) rfl
    rw [splitWords_word _ _ hw.2.1 hw.1] at h2
    exact h2
  | @codeAfterText c W hc hF ih =>
    refine ⟨?_, by intro h; simp at h⟩
    rintro - cur last hcur
    rw [wrapLoop_break _ _ _ _ _ _ hss, wrapLoop_fresh _ _ _ _ _ hc.notSpace, l2 _ _ hcur.2.2]
    exact (ih.2 rfl c c hc).cons_text 1 hcur (by simp) (by simp) false (by simp)
  | @code n c W hc hF ih =>
    refine ⟨by intro h; simp at h, ?_⟩
    rintro - cur last hcur
    rw [wrapLoop_nls hnl _ _ _ _ _ hc.notSpace, List.replicate_succ (a := E.nl), List.cons_append,
      linesOf_append_nl _ _ _ hcur.2.2.2, linesOf_nls]
    have h2 := (ih.2 rfl c c hc).cons_code n hcur (by simp) rfl
    simpa [breaks] using h2

/-! ### the words of a string have that form -/

theorem form_words {e : Kind} {b : Bool} {W : List (List α)} (hF : Form E o e .text b W) :
    ∀ ws : List (List α), (∀ w ∈ ws, TextWord E o w) → Form E o e .text b (ws ++ W) := by
  intro ws
  induction ws with
  | nil => intro _; exact hF
  | cons w ws ih => intro h; exact .word (h w (by simp)) (ih (fun x hx => h x (by simp [hx])))

theorem splitWords_ne_nil (isSpace : α → Bool) (line : List α) (h : line.all isSpace = false) (word : List α) :
    splitWords isSpace word line ≠ [] := by
  have h2 : ∀ (line word : List α), word ≠ [] → splitWords isSpace word line ≠ [] := by
    intro line
    induction line with
    | nil => intro word hw; simp [splitWords, hw]
    | cons c line ih =>
      intro word hw
      unfold splitWords
      split
      · simp [hw]
      · exact ih _ (by simp)
  induction line generalizing word with
  | nil => simp at h
  | cons c line ih =>
    unfold splitWords
    by_cases hc : isSpace c = true
    · rw [if_pos hc]
      have := ih (by simpa [hc] using h) []
      simp [this]
    · rw [if_neg hc]; exact h2 _ _ (by simp)

theorem kind_text {line : List α} (h : kind E o line = .text) :
    line.all E.isSpace = false ∧ ¬ (o.allowCode = true ∧ (0 : Int) ≥ o.codeIndent) := by
  unfold kind at h
  split at h
  · simp at h
  · rename_i h1
    split at h
    · simp at h
    · rename_i h2
      refine ⟨by simpa using h1, ?_⟩
      rintro ⟨h3, h4⟩
      exact h2 ⟨h3, by omega⟩

theorem layout_form (hnl : E.isSpace E.nl = true) (htab : E.isSpace E.tab = true) (hsp : E.isSpace E.sp = true)
    (hne : E.tab ≠ E.sp) (hnn : E.sp ≠ E.nl) (lines : List (List α)) :
    ∀ (prev : Kind) (blanks : Nat) (b : Bool), Good E o prev b lines → (∀ l ∈ lines, E.nl ∉ l) →
      (prev = .code → b = true) →
      Form E o (lastKind E o prev lines) prev b (layout E o prev blanks lines) := by
  induction lines with
  | nil => intro prev blanks b _ _ _; exact .done b
  | cons line lines ih =>
    intro prev blanks b hg hno hb
    have hno' : ∀ l ∈ lines, E.nl ∉ l := fun l hl => hno l (by simp [hl])
    obtain ⟨hc, hg⟩ := hg
    cases hk : kind E o line with
    | blank =>
      simp only [hk] at hg
      simp only [layout, lastKind, hk]
      exact ih prev (blanks + 1) b hg hno' hb
    | text =>
      simp only [hk] at hg
      simp only [layout, lastKind, hk]
      have he : elements E o line = splitWords E.isSpace [] line := by unfold elements; rw [hk]
      rw [he]
      obtain ⟨hall, hoc⟩ := kind_text hk
      have hF := ih .text 0 b hg hno' (by simp)
      simp only [reduceCtorEq, if_false]
      have hws : ∀ w ∈ splitWords E.isSpace [] line, TextWord E o w := fun w hw =>
        ⟨(splitWords_good _ _ w hw).1, (splitWords_good _ _ w hw).2, hoc⟩
      cases hs : splitWords E.isSpace [] line with
      | nil => exact absurd hs (splitWords_ne_nil _ _ hall _)
      | cons w ws =>
        rw [hs] at hws
        have hw := hws w (by simp)
        have hF2 := form_words hF ws (fun x hx => hws x (by simp [hx]))
        cases prev with
        | blank => exact .first hw hF2
        | text =>
          by_cases hbl : blanks = 0
          · subst hbl; exact .word hw hF2
          · simp only [breaks, if_neg hbl]; exact .para hw hF2
        | code =>
          have := hb rfl
          subst this
          exact .textAfterCode hw hF2
    | code =>
      simp only [hk] at hg
      simp only [layout, lastKind, hk]
      have he : elements E o line = [codeText E o line] := by unfold elements; rw [hk]
      rw [he]
      have hF := ih .code 0 true hg.2 hno' (by simp)
      simp only [reduceCtorEq, if_false]
      have hcl := codeText_line hnl htab hsp hne hnn hk hc (hno line (by simp))
      cases prev with
      | blank =>
        have hb0 : b = false := by simpa using hg.1
        subst hb0
        exact .firstCode hcl hF
      | text =>
        have hb0 : b = false := by simpa using hg.1
        subst hb0
        exact .codeAfterText hcl hF
      | code =>
        have := hb rfl
        subst this
        have := Form.code (E := E) (o := o) blanks hcl hF
        simpa [breaks] using this

/-! ### lines that can be split -/

theorem good_of (lines : List (List α)) : ∀ (k : Kind) (b : Bool), (∀ l ∈ lines, Countable E o l) →
    CodeAtMostOnce E o lines → (k ≠ .code → b = true → ∀ l ∈ lines, kind E o l ≠ .code) →
    (k = .code → ¬ ∃ x y, [x, y].Sublist lines ∧ kind E o x = .text ∧ kind E o y = .code) → (k = .code → b = true) →
    Good E o k b lines := by
  induction lines with
  | nil => intro k b _ _ _ _ _; trivial
  | cons line lines ih =>
    intro k b hc honce h1 h2 hb
    have hc' : ∀ l ∈ lines, Countable E o l := fun l hl => hc l (by simp [hl])
    have ho' : CodeAtMostOnce E o lines := fun ⟨x, y, z, h, hk⟩ => honce ⟨x, y, z, h.cons line, hk⟩
    refine ⟨hc line (by simp), ?_⟩
    cases hk : kind E o line with
    | blank =>
      exact ih k b hc' ho' (fun ha hb l hl => h1 ha hb l (by simp [hl]))
        (fun ha ⟨x, y, h, hk⟩ => h2 ha ⟨x, y, h.cons line, hk⟩) hb
    | text =>
      refine ih .text b hc' ho' (fun _ hb' l hl hkl => ?_) (by simp) (by simp)
      by_cases hkc : k = .code
      · exact h2 hkc ⟨line, l, (List.singleton_sublist.2 hl).cons_cons line, hk, hkl⟩
      · exact h1 hkc hb' l (by simp [hl]) hkl
    | code =>
      refine ⟨?_, ih .code true hc' ho' (by simp) (fun _ ⟨x, y, h, hk2⟩ => ?_) (by simp)⟩
      · by_cases hkc : k = .code
        · exact .inl hkc
        · right
          cases b with
          | false => rfl
          | true => exact absurd hk (h1 hkc rfl line (by simp))
      · exact honce ⟨line, x, y, h.cons_cons line, hk, hk2⟩

theorem of_good (lines : List (List α)) : ∀ (k : Kind) (b : Bool), Good E o k b lines →
    (∀ l ∈ lines, Countable E o l) ∧
    (k ≠ .code → b = true → ∀ l ∈ lines, kind E o l ≠ .code) ∧
    (b = true → ¬ ∃ x y, [x, y].Sublist lines ∧ kind E o x = .text ∧ kind E o y = .code) ∧
    CodeAtMostOnce E o lines := by
  induction lines with
  | nil =>
    intro k b _
    refine ⟨by simp, by simp, ?_, ?_⟩
    · rintro - ⟨x, y, h, _⟩; simp at h
    · rintro ⟨x, y, z, h, _⟩; simp at h
  | cons line lines ih =>
    intro k b hg
    obtain ⟨hc, hg⟩ := hg
    cases hk : kind E o line with
    | blank =>
      simp only [hk] at hg
      obtain ⟨i1, i2, i3, i4⟩ := ih k b hg
      refine ⟨by simpa using ⟨hc, i1⟩, ?_, ?_, ?_⟩
      · intro ha hb l hl
        rcases List.mem_cons.1 hl with h | h
        · subst h; rw [hk]; simp
        · exact i2 ha hb l h
      · rintro hb ⟨x, y, h, h1, h2⟩
        rcases List.sublist_cons_iff.1 h with h | ⟨r, h, h'⟩
        · exact i3 hb ⟨x, y, h, h1, h2⟩
        · cases h; rw [hk] at h1; simp at h1
      · rintro ⟨x, y, z, h, h1, h2⟩
        rcases List.sublist_cons_iff.1 h with h | ⟨r, h, h'⟩
        · exact i4 ⟨x, y, z, h, h1, h2⟩
        · cases h; rw [hk] at h1; simp at h1
    | text =>
      simp only [hk] at hg
      obtain ⟨i1, i2, i3, i4⟩ := ih .text b hg
      refine ⟨by simpa using ⟨hc, i1⟩, ?_, ?_, ?_⟩
      · intro ha hb l hl
        rcases List.mem_cons.1 hl with h | h
        · subst h; rw [hk]; simp
        · exact i2 (by simp) hb l h
      · rintro hb ⟨x, y, h, h1, h2⟩
        rcases List.sublist_cons_iff.1 h with h | ⟨r, h, h'⟩
        · exact i3 hb ⟨x, y, h, h1, h2⟩
        · cases h
          exact i2 (by simp) hb y (List.singleton_sublist.1 h') h2
      · rintro ⟨x, y, z, h, h1, h2⟩
        rcases List.sublist_cons_iff.1 h with h | ⟨r, h, h'⟩
        · exact i4 ⟨x, y, z, h, h1, h2⟩
        · cases h; rw [hk] at h1; simp at h1
    | code =>
      simp only [hk] at hg
      obtain ⟨i1, i2, i3, i4⟩ := ih .code true hg.2
      refine ⟨by simpa using ⟨hc, i1⟩, ?_, ?_, ?_⟩
      · intro ha hb
        rcases hg.1 with h | h
        · exact absurd h ha
        · rw [hb] at h; simp at h
      · rintro hb ⟨x, y, h, h1, h2⟩
        rcases List.sublist_cons_iff.1 h with h | ⟨r, h, h'⟩
        · exact i3 rfl ⟨x, y, h, h1, h2⟩
        · cases h; rw [hk] at h1; simp at h1
      · rintro ⟨x, y, z, h, h1, h2⟩
        rcases List.sublist_cons_iff.1 h with h | ⟨r, h, h'⟩
        · exact i4 ⟨x, y, z, h, h1, h2⟩
        · cases h; exact i3 rfl ⟨y, z, h', h2⟩

end Big.Wrap
