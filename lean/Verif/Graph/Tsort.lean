import Verif.Graph.TsortModel
import Verif.Graph.Props
/-! # C138: `python3 -m big.graph` sorts its input topologically -/
namespace Big.Graph

/-! ### specification -/

/-- The first line of a text, without its end, and what follows. -/
inductive FirstLine : List Char → List Char → List Char → Prop
  | ended {l r} : '\n' ∉ l → FirstLine (l ++ '\n' :: r) l r
  | last {l} : l ≠ [] → '\n' ∉ l → FirstLine l l []

/-- The words of a line: separated by whitespace. -/
inductive Words (space : Char → Bool) : List Char → List (List Char) → Prop
  | blank {g} : (∀ c ∈ g, space c = true) → Words space g []
  | word {g w r ws} : (∀ c ∈ g, space c = true) → w ≠ [] → (∀ c ∈ w, space c = false) →
      (∀ c, r.head? = some c → space c = true) → Words space r ws → Words space (g ++ w ++ r) (w :: ws)

/-- Every line is blank or has two words: these are the pairs. -/
inductive Pairs (space : Char → Bool) : List Char → List (List Char × List Char) → Prop
  | done : Pairs space [] []
  | blank {t l r ps} : FirstLine t l r → Words space l [] → Pairs space r ps → Pairs space t ps
  | pair {t l r a b ps} : FirstLine t l r → Words space l [a, b] → Pairs space r ps → Pairs space t ((a, b) :: ps)

/-- The first line with another number of words, without the whitespace around it. -/
inductive Invalid (space : Char → Bool) : List Char → List Char → Prop
  | here {t l r g x g' ws} : FirstLine t l r → l = g ++ x ++ g' → (∀ c ∈ g, space c = true) → (∀ c ∈ g', space c = true) →
      (∀ c, x.head? = some c → space c = false) → (∀ c, x.getLast? = some c → space c = false) →
      Words space l ws → ws.length ≠ 0 → ws.length ≠ 2 → Invalid space t x
  | later {t l r ws x} : FirstLine t l r → Words space l ws → (ws.length = 0 ∨ ws.length = 2) → Invalid space r x →
      Invalid space t x

/-- `a` comes before `b`. -/
def Before (l : List (List Char)) (a b : List Char) : Prop := ∃ x y z, l = x ++ a :: (y ++ b :: z)

/-- No word comes before itself, by the pairs. -/
def NoCycle (ps : List (List Char × List Char)) : Prop :=
  ∀ w, ¬ Relation.TransGen (fun a b => (a, b) ∈ ps) w w

/-! ### the lines -/

theorem fileLines_cur : ∀ (t cur : List Char), '\n' ∉ cur → cur ++ t ≠ [] →
    ∃ l r, FirstLine (cur ++ t) l r ∧ (fileLines cur t = l :: fileLines [] r ∨ fileLines cur t = (l ++ ['\n']) :: fileLines [] r) ∧
      r.length < (cur ++ t).length := by
  intro t
  induction t with
  | nil =>
    intro cur h hne
    rw [List.append_nil] at hne ⊢
    refine ⟨cur, [], .last hne h, .inl ?_, by simpa using List.length_pos_iff.2 hne⟩
    unfold fileLines
    rw [if_neg (by simpa using hne)]
    simp [fileLines]
  | cons c t ih =>
    intro cur h hne
    conv => enter [1, l, 1, r, 2, 1]; rw [show fileLines cur (c :: t) =
      if c = '\n' then (cur ++ [c]) :: fileLines [] t else fileLines (cur ++ [c]) t from rfl]
    by_cases hc : c = '\n'
    · subst hc
      rw [if_pos rfl]
      exact ⟨cur, t, .ended h, .inr rfl, by simp; omega⟩
    · rw [if_neg hc]
      obtain ⟨l, r, h1, h2, h3⟩ := ih (cur ++ [c]) (by simpa [h] using fun e => hc e.symm) (by simp)
      rw [List.append_assoc, List.singleton_append] at h1 h3
      exact ⟨l, r, h1, h2, h3⟩

theorem firstLine_unique {t l r l' r' : List Char} (h : FirstLine t l r) (h' : FirstLine t l' r') : l = l' ∧ r = r' := by
  have key : ∀ (l l' r r' : List Char), '\n' ∉ l → '\n' ∉ l' → l ++ '\n' :: r = l' ++ '\n' :: r' → l = l' ∧ r = r' := by
    intro l
    induction l with
    | nil =>
      intro l' r r' _ h e
      cases l' with
      | nil => simpa using e
      | cons x l' => simp at e h; exact absurd e.1 h.1
    | cons x l ih =>
      intro l' r r' h h' e
      cases l' with
      | nil => simp at e h; exact absurd e.1.symm h.1
      | cons y l' =>
        simp only [List.cons_append, List.cons.injEq] at e
        obtain ⟨rfl, e⟩ := e
        obtain ⟨rfl, rfl⟩ := ih l' r r' (by simp at h; exact h.2) (by simp at h'; exact h'.2) e
        exact ⟨rfl, rfl⟩
  generalize ht : t = t' at h'
  cases h with
  | ended h =>
    cases h' with
    | ended h' => exact key _ _ _ _ h h' ht
    | last _ h' => subst ht; simp at h'
  | last _ h =>
    cases h' with
    | ended h' => subst ht; simp at h
    | last _ h' => exact ⟨ht, rfl⟩

/-! ### the words -/

theorem splitFields_word {space : Char → Bool} : ∀ (w cur r : List Char), (∀ c ∈ w, space c = false) →
    splitFields space cur (w ++ r) = splitFields space (cur ++ w) r := by
  intro w
  induction w with
  | nil => intro cur r _; simp
  | cons c w ih =>
    intro cur r h
    rw [List.cons_append, splitFields, if_neg (by simp [h c (by simp)]), ih _ _ (fun x hx => h x (by simp [hx]))]
    simp

theorem splitFields_gap {space : Char → Bool} : ∀ (g r : List Char), (∀ c ∈ g, space c = true) →
    splitFields space [] (g ++ r) = splitFields space [] r := by
  intro g
  induction g with
  | nil => intro r _; rfl
  | cons c g ih =>
    intro r h
    rw [List.cons_append, splitFields, if_pos (h c (by simp)), if_pos (by rfl), ih _ (fun x hx => h x (by simp [hx]))]

theorem splitFields_end {space : Char → Bool} {cur r : List Char} (hc : cur ≠ []) (h : ∀ c, r.head? = some c → space c = true) :
    splitFields space cur r = cur :: splitFields space [] r := by
  have : ¬ cur.isEmpty = true := by simpa using hc
  cases r with
  | nil => simp only [splitFields]; rw [if_neg this]; rfl
  | cons c r =>
    simp only [splitFields]
    rw [if_pos (h c rfl), if_neg this, if_pos (h c rfl), if_pos (by rfl)]

/-- `split()` gives the words. -/
theorem splitFields_words {space : Char → Bool} {l : List Char} {ws : List (List Char)} (h : Words space l ws) :
    splitFields space [] l = ws := by
  induction h with
  | @blank g h =>
    have := splitFields_gap g [] h
    rw [List.append_nil] at this
    rw [this]; rfl
  | word h1 h2 h3 h4 _ ih =>
    rw [List.append_assoc, splitFields_gap _ _ h1, splitFields_word _ _ _ h3, List.nil_append, splitFields_end h2 h4, ih]

/-- Every line has words. -/
theorem words_exist (space : Char → Bool) : ∀ (n : Nat) (l : List Char), l.length ≤ n → ∃ ws, Words space l ws := by
  intro n
  induction n with
  | zero =>
    intro l h
    have : l = [] := List.length_eq_zero_iff.1 (by omega)
    subst this; exact ⟨[], .blank (by simp)⟩
  | succ n ih =>
    intro l h
    have e1 := List.takeWhile_append_dropWhile (p := space) (l := l)
    generalize hg : l.takeWhile space = g at e1
    generalize hd : l.dropWhile space = d at e1
    have hgs : ∀ c ∈ g, space c = true := by
      subst hg; intro c hc; exact List.all_eq_true.1 List.all_takeWhile c hc
    cases d with
    | nil => rw [← e1, List.append_nil]; exact ⟨[], .blank hgs⟩
    | cons c d =>
      have hc : space c = false := by
        have := List.head?_dropWhile_not space l
        rw [hd] at this; simpa using this
      have e2 := List.takeWhile_append_dropWhile (p := fun c => !space c) (l := c :: d)
      generalize hw : (c :: d).takeWhile (fun c => !space c) = w at e2
      generalize hr : (c :: d).dropWhile (fun c => !space c) = r at e2
      have hws : ∀ c ∈ w, space c = false := by
        subst hw; intro x hx
        have := List.all_eq_true.1 (List.all_takeWhile (p := fun c => !space c) (l := c :: d)) x hx
        simpa using this
      have hwne : w ≠ [] := by rw [← hw, List.takeWhile_cons, if_pos (by simp [hc])]; simp
      have hrs : ∀ x, r.head? = some x → space x = true := by
        intro x hx
        have := List.head?_dropWhile_not (fun c => !space c) (c :: d)
        rw [hr, hx] at this; simpa using this
      have hlen : r.length ≤ n := by
        have h1 := congrArg List.length e1
        have h2 := congrArg List.length e2
        have h3 := List.length_pos_iff.2 hwne
        rw [List.length_append] at h1 h2
        omega
      obtain ⟨ws, hh⟩ := ih r hlen
      refine ⟨w :: ws, ?_⟩
      rw [← e1, ← e2, ← List.append_assoc]
      exact .word hgs hwne hws hrs hh

theorem dropWhile_head {p : Char → Bool} {l : List Char} (h : ∀ c, l.head? = some c → p c = false) : l.dropWhile p = l := by
  cases l with
  | nil => rfl
  | cons c l => rw [List.dropWhile_cons, if_neg (by simp [h c rfl])]

/-- `strip()` -/
theorem stripLine_eq {space : Char → Bool} {g x g' : List Char} (h1 : ∀ c ∈ g, space c = true) (h2 : ∀ c ∈ g', space c = true)
    (h3 : ∀ c, x.head? = some c → space c = false) (h4 : ∀ c, x.getLast? = some c → space c = false) :
    stripLine space (g ++ x ++ g') = x := by
  unfold stripLine
  rw [List.append_assoc, List.dropWhile_append_of_pos h1]
  cases x with
  | nil =>
    have : (([] : List Char) ++ g').dropWhile space = [] := by
      have := List.dropWhile_append_of_pos (p := space) (l₁ := g') (l₂ := []) h2
      simpa using this
    rw [this]; rfl
  | cons c x =>
    rw [dropWhile_head (l := c :: x ++ g') (by intro y hy; exact h3 y hy), List.reverse_append,
      List.dropWhile_append_of_pos (by simpa using h2), dropWhile_head (by intro y hy; rw [List.head?_reverse] at hy; exact h4 y hy),
      List.reverse_reverse]

/-- Every line is whitespace, something, and whitespace. -/
theorem line_parts (space : Char → Bool) (l : List Char) : ∃ g x g', l = g ++ x ++ g' ∧ (∀ c ∈ g, space c = true) ∧
    (∀ c ∈ g', space c = true) ∧ (∀ c, x.head? = some c → space c = false) ∧ (∀ c, x.getLast? = some c → space c = false) := by
  refine ⟨l.takeWhile space, stripLine space l, ((l.dropWhile space).reverse.takeWhile space).reverse, ?_, ?_, ?_, ?_, ?_⟩
  · unfold stripLine
    rw [List.append_assoc, ← List.reverse_append, List.takeWhile_append_dropWhile, List.reverse_reverse,
      List.takeWhile_append_dropWhile]
  · intro c hc; exact List.all_eq_true.1 List.all_takeWhile c hc
  · intro c hc; rw [List.mem_reverse] at hc; exact List.all_eq_true.1 List.all_takeWhile c hc
  · intro c hc
    unfold stripLine at hc
    have hpre : ((l.dropWhile space).reverse.dropWhile space).reverse <+: l.dropWhile space := by
      rw [← List.reverse_suffix, List.reverse_reverse]; exact List.dropWhile_suffix _
    obtain ⟨u, hu⟩ := hpre
    have hd : (l.dropWhile space).head? = some c := by
      rw [← hu, List.head?_append, hc]; rfl
    have := List.head?_dropWhile_not space l
    rw [hd] at this; simpa using this
  · intro c hc
    unfold stripLine at hc
    rw [List.getLast?_reverse] at hc
    have := List.head?_dropWhile_not space (l.dropWhile space).reverse
    rw [hc] at this; simpa using this

/-- Stripping, and a newline at the end, change no words. -/
theorem words_strip {space : Char → Bool} {g x g' : List Char} {ws : List (List Char)} (h1 : ∀ c ∈ g, space c = true)
    (h2 : ∀ c ∈ g', space c = true) (h : Words space (g ++ x ++ g') ws) : splitFields space [] x = ws := by
  have e := splitFields_words h
  rw [List.append_assoc, splitFields_gap _ _ h1] at e
  obtain ⟨ws', hx⟩ := words_exist space _ x (Nat.le_refl _)
  have hx' : Words space (x ++ g') ws' := by
    clear e h
    induction hx with
    | blank h =>
      refine .blank ?_
      intro c hc
      rcases List.mem_append.1 hc with hc | hc
      · exact h c hc
      · exact h2 c hc
    | @word g w r ws a1 a2 a3 a4 _ ih =>
      rw [List.append_assoc]
      refine .word a1 a2 a3 ?_ ih
      intro c hc
      cases r with
      | nil => exact h2 c (List.mem_of_mem_head? (by simpa using hc))
      | cons y r => exact a4 c hc
  rw [splitFields_words hx'] at e
  rw [splitFields_words hx, e]

theorem words_blank {space : Char → Bool} {l : List Char} (h : ∀ c ∈ l, space c = true) {ws : List (List Char)}
    (hw : Words space l ws) : ws = [] := by
  cases hw with
  | blank _ => rfl
  | @word g w r ws a1 a2 a3 a4 _ =>
    exfalso
    cases w with
    | nil => exact a2 rfl
    | cons c w =>
      have := h c (by simp)
      rw [a3 c (by simp)] at this
      simp at this

/-- What the loop does with the first line of a text. -/
theorem readPairs_line {space : Char → Bool} (hnl : space '\n' = true) (ord : List (List Char) → List (List Char))
    (s : Sys (List Char)) {t l r g x g' : List Char} {ws : List (List Char)} (h : FirstLine t l r) (hl : l = g ++ x ++ g')
    (h1 : ∀ c ∈ g, space c = true) (h2 : ∀ c ∈ g', space c = true)
    (h3 : ∀ c, x.head? = some c → space c = false) (h4 : ∀ c, x.getLast? = some c → space c = false)
    (hw : Words space l ws) :
    readPairs space ord s (fileLines [] t) =
      if ws.length = 0 then readPairs space ord s (fileLines [] r)
      else match twoFields ws with
        | some p => readPairs space ord (step ord s (.add p.2 [p.1])).1 (fileLines [] r)
        | none => .error x := by
  have ht : [] ++ t ≠ [] := by
    cases h with
    | ended _ => simp
    | last h _ => exact h
  obtain ⟨l', r', e1, e2, _⟩ := fileLines_cur t [] (by simp) ht
  obtain ⟨rfl, rfl⟩ := firstLine_unique h e1
  have hs : ∀ m, (m = l ∨ m = l ++ ['\n']) → stripLine space m = x := by
    rintro m (rfl | rfl)
    · rw [hl]; exact stripLine_eq h1 h2 h3 h4
    · rw [hl, List.append_assoc]
      refine stripLine_eq h1 ?_ h3 h4
      intro c hc
      rcases List.mem_append.1 hc with hc | hc
      · exact h2 c hc
      · rw [List.mem_singleton] at hc; rw [hc]; exact hnl
  have hf : splitFields space [] x = ws := by rw [hl] at hw; exact words_strip h1 h2 hw
  have hx : x.isEmpty = true ↔ ws.length = 0 := by
    rw [List.isEmpty_iff, List.length_eq_zero_iff]
    constructor
    · rintro rfl
      rw [← hf]; rfl
    · rintro rfl
      cases x with
      | nil => rfl
      | cons c x =>
        exfalso
        obtain ⟨ws', hh⟩ := words_exist space _ (c :: x) (Nat.le_refl _)
        have h5 := splitFields_words hh
        rw [hf] at h5
        subst h5
        generalize hcx : c :: x = cx at hh
        generalize hnil : ([] : List (List Char)) = wn at hh
        cases hh with
        | blank h =>
          subst hcx
          have := h c (by simp); rw [h3 c rfl] at this; simp at this
        | word _ _ _ _ _ => simp at hnil
  have main : ∀ m, (m = l ∨ m = l ++ ['\n']) → readPairs space ord s (m :: fileLines [] r) =
      if ws.length = 0 then readPairs space ord s (fileLines [] r)
      else match twoFields ws with
        | some p => readPairs space ord (step ord s (.add p.2 [p.1])).1 (fileLines [] r)
        | none => .error x := by
    intro m hm
    rw [readPairs]
    rw [hs m hm, hf]
    by_cases hx0 : ws.length = 0
    · rw [if_pos (hx.2 hx0), if_pos hx0]
    · rw [if_neg (fun h => hx0 (hx.1 h)), if_neg hx0]
      cases twoFields ws <;> rfl
  rcases e2 with e2 | e2
  · rw [e2]; exact main _ (.inl rfl)
  · rw [e2]; exact main _ (.inr rfl)

/-! ### C138 -/

/-- The graph that is read. -/
theorem readPairs_spec {space : Char → Bool} (hnl : space '\n' = true) {ord : List (List Char) → List (List Char)}
    (hord : ∀ l, (ord l).Perm l) {t : List Char} {ps : List (List Char × List Char)} (h : Pairs space t ps) :
    ∀ (s : Sys (List Char)) (o : Obs (List Char)), Reach s o → ∃ s' o', readPairs space ord s (fileLines [] t) = .ok s' ∧
      Reach s' o' ∧ (∀ w, o'.node w ↔ o.node w ∨ ∃ p ∈ ps, w = p.1 ∨ w = p.2) ∧
      (∀ a b, o'.edge a b ↔ o.edge a b ∨ (a, b) ∈ ps) := by
  induction h with
  | done => intro s o r; exact ⟨s, o, rfl, r, by simp, by simp⟩
  | @blank t l r ps h1 h2 _ ih =>
    intro s o hr
    obtain ⟨g, x, g', e1, e2, e3, e4, e5⟩ := line_parts space l
    rw [readPairs_line hnl ord s h1 e1 e2 e3 e4 e5 h2, if_pos (by rfl)]
    exact ih s o hr
  | @pair t l r a b ps h1 h2 _ ih =>
    intro s o hr
    obtain ⟨g, x, g', e1, e2, e3, e4, e5⟩ := line_parts space l
    rw [readPairs_line hnl ord s h1 e1 e2 e3 e4 e5 h2, if_neg (by simp)]
    simp only [twoFields]
    obtain ⟨s', o', g1, g2, g3, g4⟩ := ih _ _ (hr.step ord hord (.add b [a]))
    refine ⟨s', o', g1, g2, ?_, ?_⟩
    · intro w
      rw [g3]
      simp only [observe, List.mem_cons, List.not_mem_nil, or_false, exists_eq_or_imp]
      constructor
      · rintro ((h | h | h) | h)
        · exact .inl h
        · exact .inr (.inl (.inr h))
        · exact .inr (.inl (.inl h))
        · exact .inr (.inr h)
      · rintro (h | (h | h) | h)
        · exact .inl (.inl h)
        · exact .inl (.inr (.inr h))
        · exact .inl (.inr (.inl h))
        · exact .inr h
    · intro c d
      rw [g4]
      simp only [observe, List.mem_cons, List.not_mem_nil, or_false, Prod.mk.injEq]
      constructor
      · rintro ((h | h) | h)
        · exact .inl h
        · exact .inr (.inl ⟨h.2, h.1⟩)
        · exact .inr (.inr h)
      · rintro (h | h | h)
        · exact .inl (.inl h)
        · exact .inl (.inr ⟨h.2, h.1⟩)
        · exact .inr h

/-- C138: if every line is blank or a pair of words, and there is no cycle, each word is printed once, and the first word
of each pair before the second. -/
theorem C138_sorts {space : Char → Bool} (hnl : space '\n' = true) {ord : List (List Char) → List (List Char)}
    (hord : ∀ l, (ord l).Perm l) {t : List Char} {ps : List (List Char × List Char)} (h : Pairs space t ps) (hc : NoCycle ps) :
    ∃ l, tsort space ord t = .printed l ∧ l.Nodup ∧ (∀ w, w ∈ l ↔ ∃ p ∈ ps, w = p.1 ∨ w = p.2) ∧
      ∀ p ∈ ps, Before l p.1 p.2 := by
  obtain ⟨s, o, h1, h2, h3, h4⟩ := readPairs_spec hnl hord h _ _ Reach.init
  have he : o.edge = fun a b => (a, b) ∈ ps := by
    funext a b; rw [h4]; simp [Obs.init]
  have ha : o.Acyclic := by intro n; rw [he]; exact hc n
  obtain ⟨l, k1, k2, k3, k4⟩ := C13_static_order h2 ha hord
  have hn : ∀ w, w ∈ l ↔ ∃ p ∈ ps, w = p.1 ∨ w = p.2 := by
    intro w; rw [k3, h3]; simp [Obs.init]
  refine ⟨l, ?_, k2, hn, ?_⟩
  · unfold tsort; rw [h1]; dsimp only; rw [k1]
  · intro p hp
    obtain ⟨u, v, huv⟩ := List.append_of_mem ((hn p.2).2 ⟨p, hp, .inr rfl⟩)
    have := k4 u p.2 v huv p.1 (by rw [he]; exact hp)
    obtain ⟨x, y, hxy⟩ := List.append_of_mem this
    exact ⟨x, y, v, by rw [huv, hxy]; simp⟩

/-- C138: if there is a cycle, CycleError is raised and nothing is printed. -/
theorem C138_cycle {space : Char → Bool} (hnl : space '\n' = true) {ord : List (List Char) → List (List Char)}
    (hord : ∀ l, (ord l).Perm l) {t : List Char} {ps : List (List Char × List Char)} (h : Pairs space t ps) (hc : ¬ NoCycle ps) :
    tsort space ord t = .raised .cycleError := by
  obtain ⟨s, o, h1, h2, h3, h4⟩ := readPairs_spec hnl hord h _ _ Reach.init
  have he : o.edge = fun a b => (a, b) ∈ ps := by
    funext a b; rw [h4]; simp [Obs.init]
  have ha : ¬ o.Acyclic := by intro hh; apply hc; intro n; rw [← he]; exact hh n
  unfold tsort; rw [h1]; dsimp only; rw [C13_static_order_cycle h2 ha hord]

/-- C138: a pair of a word and itself counts as a cycle (in POSIX tsort it only says that there is such a word). -/
theorem C138_same_word {space : Char → Bool} (hnl : space '\n' = true) {ord : List (List Char) → List (List Char)}
    (hord : ∀ l, (ord l).Perm l) {t : List Char} {ps : List (List Char × List Char)} (h : Pairs space t ps) {w : List Char}
    (hw : (w, w) ∈ ps) : tsort space ord t = .raised .cycleError :=
  C138_cycle hnl hord h fun hc => hc w (.single hw)

/-- C138: at the first line with another number of words the program exits, naming the line, and prints nothing. -/
theorem C138_invalid {space : Char → Bool} (hnl : space '\n' = true) (ord : List (List Char) → List (List Char))
    {t x : List Char} (h : Invalid space t x) : tsort space ord t = .invalid x := by
  have key : ∀ s, readPairs space ord s (fileLines [] t) = .error x := by
    induction h with
    | @here t l r g x g' ws h1 h2 h3 h4 h5 h6 h7 h8 h9 =>
      intro s
      rw [readPairs_line hnl ord s h1 h2 h3 h4 h5 h6 h7, if_neg h8]
      match ws, h9 with
      | [], _ => rfl
      | [_], _ => rfl
      | [_, _], h9 => simp at h9
      | _ :: _ :: _ :: _, _ => rfl
    | @later t l r ws x h1 h2 h3 _ ih =>
      intro s
      obtain ⟨g, y, g', e1, e2, e3, e4, e5⟩ := line_parts space l
      rw [readPairs_line hnl ord s h1 e1 e2 e3 e4 e5 h2]
      rcases h3 with h3 | h3
      · rw [if_pos h3]; exact ih s
      · rw [if_neg (by omega)]
        match ws, h3 with
        | [a, b], _ => exact ih _
  unfold tsort
  rw [key]

/-- C138: every text is one or the other. -/
theorem C138_every_text (space : Char → Bool) (t : List Char) : (∃ ps, Pairs space t ps) ∨ ∃ x, Invalid space t x := by
  generalize hn : t.length = n
  induction n using Nat.strongRecOn generalizing t with
  | _ n ih =>
    by_cases ht : t = []
    · subst ht; exact .inl ⟨[], .done⟩
    · obtain ⟨l, r, h1, _, h3⟩ := fileLines_cur t [] (by simp) (by simpa using ht)
      rw [List.nil_append] at h1 h3
      obtain ⟨ws, hw⟩ := words_exist space _ l (Nat.le_refl _)
      by_cases h : ws.length = 0 ∨ ws.length = 2
      · rcases ih r.length (by omega) r rfl with ⟨ps, hp⟩ | ⟨x, hx⟩
        · rcases h with h | h
          · have := List.length_eq_zero_iff.1 h
            subst this
            exact .inl ⟨ps, .blank h1 hw hp⟩
          · match ws, h with
            | [a, b], _ => exact .inl ⟨(a, b) :: ps, .pair h1 hw hp⟩
        · exact .inr ⟨x, .later h1 hw h hx⟩
      · rw [not_or] at h
        obtain ⟨g, y, g', e1, e2, e3, e4, e5⟩ := line_parts space l
        exact .inr ⟨y, .here h1 e1 e2 e3 e4 e5 hw h.1 h.2⟩

/-! ### examples -/

/-- Whitespace of ASCII. -/
def asciiSpace (c : Char) : Bool := c = ' ' || c = '\n' || c = '\t' || c = '\r' || c = '\x0b' || c = '\x0c'

/-- What is printed. -/
def TsortOut.lines : TsortOut → Option (List String)
  | .printed l => some (l.map String.ofList)
  | _ => none

example : (tsort asciiSpace id "a b\n\n  b c \nd\tb\n".toList).lines = some ["a", "d", "b", "c"] ∧
    (tsort asciiSpace id "a b\nb a".toList).lines = none ∧ (tsort asciiSpace id "a b\nb c d\n".toList).lines = none := by
  decide +kernel

/-- A text that meets the hypotheses. -/
example : ∃ ps, Pairs asciiSpace "a b\n\nb c".toList ps ∧ NoCycle ps := by
  refine ⟨[(['a'], ['b']), (['b'], ['c'])], ?_, ?_⟩
  · have w : ∀ x y : Char, asciiSpace x = false → asciiSpace y = false → Words asciiSpace [x, ' ', y] [[x], [y]] := by
      intro x y hx hy
      refine .word (g := []) (w := [x]) (r := [' ', y]) (by simp) (by simp) (by simpa using hx) ?_
        (.word (g := [' ']) (w := [y]) (r := []) ?_ (by simp) (by simpa using hy) (by simp) (.blank (by simp)))
      · intro c hc; simp at hc; subst hc; rfl
      · intro c hc; simp at hc; subst hc; rfl
    refine .pair (.ended (l := "a b".toList) (r := "\nb c".toList) (by decide)) (w 'a' 'b' rfl rfl) ?_
    refine .blank (.ended (l := []) (r := "b c".toList) (by decide)) (.blank (by simp)) ?_
    exact .pair (.last (by decide) (by decide)) (w 'b' 'c' rfl rfl) .done
  · intro v hv
    have hlt : ∀ a b : List Char, (a, b) ∈ [(['a'], ['b']), (['b'], ['c'])] → (a.map Char.toNat).sum < (b.map Char.toNat).sum := by
      intro a b h
      simp only [List.mem_cons, Prod.mk.injEq, List.not_mem_nil, or_false] at h
      rcases h with ⟨rfl, rfl⟩ | ⟨rfl, rfl⟩ <;> decide
    have : ∀ a b, Relation.TransGen (fun a b => (a, b) ∈ [(['a'], ['b']), (['b'], ['c'])]) a b →
        (a.map Char.toNat).sum < (b.map Char.toNat).sum := by
      intro a b h
      induction h with
      | single h => exact hlt _ _ h
      | tail _ h ih => exact Nat.lt_trans ih (hlt _ _ h)
    exact Nat.lt_irrefl _ (this v v hv)

end Big.Graph
