import Verif.Multisplit.CodeProps
import Verif.Multisplit.ByteLines
import Verif.Quoted.Props
/-! # C150: split_quoted_strings on encoded text -/
namespace Big.SQ
open Big.MS Spec

variable {α β : Type} [DecidableEq α] [DecidableEq β]

/-! ### Specification -/

/-- What split_quoted_strings yields, and how it ends, encoded. -/
def encodeResult (F : α → List β) : Except Err (List (Tuple α) × Option Err) → Except Err (List (Tuple β) × Option Err) :=
  Except.map (fun r => (r.1.map (fun x => (x.1.flatMap F, x.2.1.flatMap F, x.2.2.flatMap F)), r.2))

/-- Python's str, as far as split_quoted_strings is concerned. -/
def pyStr : Env Char where
  nl := '\n'
  nlines s := (PyStr.splitlines false s).length
  laden := 'x'
  sort l := l
  cache := strCache

/-- Python's bytes. -/
def pyBytes : Env UInt8 where
  nl := 10
  nlines s := (PyBytes.splitlines false s).length
  laden := 120
  sort l := l
  cache := bytesCache

/-! ### Lemmas -/

section
variable {e : List α → List β} (h : Code e) {E : Env α} {E' : Env β}

theorem code_isEmpty (h : Code e) (a : List α) : (e a).isEmpty = a.isEmpty := by
  rw [Bool.eq_iff_iff, List.isEmpty_iff, List.isEmpty_iff, h.eq_nil]

theorem code_contains (h : Code e) (l : List (List α)) (a : List α) : (l.map e).contains (e a) = l.contains a := by
  rw [Bool.eq_iff_iff, List.contains_iff_mem, List.contains_iff_mem, List.mem_map]
  constructor
  · rintro ⟨b, hb, heq⟩; exact h.inj heq ▸ hb
  · intro ha; exact ⟨a, ha, rfl⟩

theorem code_flatten (h : Code e) : ∀ l : List (List α), (l.map e).flatten = e l.flatten
  | [] => h.nil.symm
  | a :: l => by rw [List.map_cons, List.flatten_cons, List.flatten_cons, code_flatten h l, h.append]

/-- The strings of a tuple encoded. -/
def encT (e : List α → List β) (x : Tuple α) : Tuple β := (e x.1, e x.2.1, e x.2.2)

theorem code_repeated (h : Code e) : ∀ l : List (List α), repeated (l.map e) = repeated l
  | [] => rfl
  | a :: l => by simp only [List.map_cons, repeated, code_contains h, code_repeated h l]

variable {ml : List (List α)} {S : List α}

/-- The condition on line breaks: any text made of the characters `S` has a line break iff its encoding has. -/
def SameLines (e : List α → List β) (E : Env α) (E' : Env β) (S : List α) : Prop :=
  ∀ t, t ≠ [] → (∀ c ∈ t, c ∈ S) → multi E' (e t) = multi E t

theorem code_bad (h : Code e) (hm : SameLines e E E' S) (quote text : List α) (ht : ∀ c ∈ text, c ∈ S) :
    bad E' (ml.map e) (e quote) (e text) = bad E ml quote text := by
  unfold bad
  rw [code_isEmpty h, code_isEmpty h, code_contains h]
  by_cases h0 : text = []
  · subst h0; simp
  · rw [hm text h0 ht]

theorem code_finish (h : Code e) (hm : SameLines e E E' S) (state quote : List α) (buffer : List (List α))
    (hb : ∀ c ∈ buffer.flatten, c ∈ S) :
    finish E' (ml.map e) (e state) (e quote) (buffer.map e) =
      ((finish E ml state quote buffer).1.map (encT e), (finish E ml state quote buffer).2) := by
  unfold finish
  simp only [List.isEmpty_map, code_flatten h, code_isEmpty h, code_bad h hm quote buffer.flatten hb]
  split
  · rfl
  · split
    · split
      · rfl
      · split <;> simp [encT, h.nil]
    · rfl

theorem code_addLiteral (h : Code e) (buffer : List (List α)) (l : List α) :
    addLiteral (buffer.map e) (e l) = (addLiteral buffer l).map e := by
  unfold addLiteral
  rw [code_isEmpty h]
  split <;> simp

theorem code_loop (h : Code e) (hm : SameLines e E E' S) (all : List (List α)) :
    ∀ (pairs : List (List α × List α)) (state quote : List α) (buffer : List (List α)),
      (∀ c ∈ buffer.flatten, c ∈ S) → (∀ p ∈ pairs, (∀ c ∈ p.1, c ∈ S) ∧ ∀ c ∈ p.2, c ∈ S) →
      loop E' (all.map e) (ml.map e) (e state) (e quote) (buffer.map e) (pairs.map (fun p => (e p.1, e p.2))) =
        ((loop E all ml state quote buffer pairs).1.map (encT e), (loop E all ml state quote buffer pairs).2) := by
  intro pairs
  induction pairs with
  | nil =>
    intro state quote buffer hb _
    simp only [List.map_nil, loop]
    exact code_finish h hm state quote buffer hb
  | cons p rest ih =>
    obtain ⟨lit, sep⟩ := p
    intro state quote buffer hb hp
    have hl := (hp (lit, sep) (by simp)).1
    have hs := (hp (lit, sep) (by simp)).2
    have hr : ∀ p ∈ rest, (∀ c ∈ p.1, c ∈ S) ∧ ∀ c ∈ p.2, c ∈ S := fun p hp' => hp p (by simp [hp'])
    have hb1 : ∀ c ∈ (addLiteral buffer lit).flatten, c ∈ S := by
      intro c hc
      unfold addLiteral at hc
      split at hc
      · exact hb c hc
      · simp only [List.flatten_append, List.flatten_cons, List.flatten_nil, List.append_nil, List.mem_append] at hc
        exact hc.elim (hb c) (hl c)
    have hb2 : ∀ c ∈ (addLiteral buffer lit ++ [sep]).flatten, c ∈ S := by
      intro c hc
      simp only [List.flatten_append, List.flatten_cons, List.flatten_nil, List.append_nil, List.mem_append] at hc
      exact hc.elim (hb1 c) (hs c)
    have hb0 : ∀ c ∈ ([] : List (List α)).flatten, c ∈ S := by simp
    have ih1 := ih state quote (addLiteral buffer lit ++ [sep]) hb2 hr
    have ih2 := ih state sep [] hb0 hr
    have ih3 := ih [] [] [] hb0 hr
    simp only [List.map_append, List.map_cons, List.map_nil, h.nil] at ih1 ih2 ih3
    have hsq : e sep = e quote ↔ sep = quote := ⟨fun he => h.inj he, fun he => by rw [he]⟩
    simp only [List.map_cons, loop, code_addLiteral h, code_isEmpty h, code_contains h, List.isEmpty_map,
      code_flatten h, ne_eq, hsq, code_bad h hm quote _ hb1, ih1, ih2, ih3]
    by_cases h1 : quote.isEmpty = true
    · simp only [h1, if_true]
      split
      · rfl
      · split
        · rfl
        · simp [encT, h.nil]
    · simp only [h1, if_false, Bool.false_eq_true]
      split
      · rfl
      · split
        · rfl
        · split <;> simp_all [encT, h.nil]

/-- The condition that encoding makes no line breaks. -/
def NoNewLines (e : List α → List β) (E : Env α) (E' : Env β) : Prop :=
  ∀ t, t ≠ [] → multi E' (e t) = true → multi E t = true

theorem code_bad_le (h : Code e) (hm : NoNewLines e E E') (quote text : List α) (hb : bad E ml quote text = false) :
    bad E' (ml.map e) (e quote) (e text) = false := by
  unfold bad at hb ⊢
  rw [code_isEmpty h, code_isEmpty h, code_contains h]
  by_cases h0 : text = []
  · subst h0; simp
  · have := hm text h0
    cases h1 : multi E' (e text) with
    | false => simp
    | true => rw [this h1] at hb; exact hb

theorem code_finish_le (h : Code e) (hm : NoNewLines e E E') (state quote : List α) (buffer : List (List α))
    (hok : (finish E ml state quote buffer).2 = none) :
    finish E' (ml.map e) (e state) (e quote) (buffer.map e) =
      ((finish E ml state quote buffer).1.map (encT e), none) := by
  unfold finish at hok ⊢
  simp only [List.isEmpty_map, code_flatten h, code_isEmpty h]
  by_cases h1 : buffer.isEmpty = true
  · simp only [h1, if_true, List.map_nil]
  · simp only [h1, if_false, Bool.false_eq_true] at hok ⊢
    by_cases h2 : (!buffer.flatten.isEmpty || !quote.isEmpty) = true
    · simp only [h2, if_true] at hok ⊢
      cases hb : bad E ml quote buffer.flatten with
      | true => rw [hb] at hok; simp at hok
      | false =>
        rw [code_bad_le h hm _ _ hb]
        simp only [Bool.false_eq_true, if_false]
        split <;> simp [encT, h.nil]
    · simp only [h2, if_false, Bool.false_eq_true, List.map_nil]

theorem code_loop_le (h : Code e) (hm : NoNewLines e E E') (all : List (List α)) :
    ∀ (pairs : List (List α × List α)) (state quote : List α) (buffer : List (List α)),
      (loop E all ml state quote buffer pairs).2 = none →
      loop E' (all.map e) (ml.map e) (e state) (e quote) (buffer.map e) (pairs.map (fun p => (e p.1, e p.2))) =
        ((loop E all ml state quote buffer pairs).1.map (encT e), none) := by
  intro pairs
  induction pairs with
  | nil =>
    intro state quote buffer hok
    simp only [List.map_nil, loop] at hok ⊢
    exact code_finish_le h hm state quote buffer hok
  | cons p rest ih =>
    obtain ⟨lit, sep⟩ := p
    intro state quote buffer hok
    have ih1 := ih state quote (addLiteral buffer lit ++ [sep])
    have ih2 := ih state sep []
    have ih3 := ih [] [] []
    simp only [List.map_append, List.map_cons, List.map_nil, h.nil] at ih1 ih2 ih3
    have hsq : e sep = e quote ↔ sep = quote := ⟨fun he => h.inj he, fun he => by rw [he]⟩
    simp only [List.map_cons, loop, code_addLiteral h, code_isEmpty h, code_contains h, List.isEmpty_map,
      code_flatten h, ne_eq, hsq] at hok ⊢
    by_cases h1 : quote.isEmpty = true
    · simp only [h1, if_true] at hok ⊢
      by_cases h2 : (!all.contains sep) = true
      · simp only [h2, if_true] at hok ⊢
        exact ih1 hok
      · simp only [h2, if_false, Bool.false_eq_true] at hok ⊢
        by_cases h3 : (addLiteral buffer lit).isEmpty = true
        · simp only [h3, if_true] at hok ⊢
          exact ih2 hok
        · simp only [h3, if_false, Bool.false_eq_true] at hok ⊢
          rw [ih2 hok]
          simp [encT, h.nil]
    · simp only [h1, if_false, Bool.false_eq_true] at hok ⊢
      by_cases h2 : sep = quote
      · simp only [h2, not_true_eq_false, if_false] at hok ⊢
        cases hb : bad E ml quote (addLiteral buffer lit).flatten with
        | true => rw [hb] at hok; simp at hok
        | false =>
          rw [hb] at hok
          rw [code_bad_le h hm _ _ hb]
          simp only [Bool.false_eq_true, if_false] at hok ⊢
          rw [ih3 hok]
          split <;> simp_all [encT, h.nil]
      · simp only [h2, not_false_eq_true, if_true] at hok ⊢
        exact ih1 hok

theorem pairOf_onStr (h : Code e) (x : Item α) : pairOf (Item.onStr e x) = (e (pairOf x).1, e (pairOf x).2) := by
  cases x with
  | str s => simp only [Item.onStr, pairOf, h.nil]
  | pair a b => rfl

theorem code_separators (h : Code e) (hsort : ∀ l w, w ∈ E.sort l ↔ w ∈ l) (hsort' : ∀ l w, w ∈ E'.sort l ↔ w ∈ l)
    (quotes ml : List (List α)) (escape : List α) (w : List β) :
    w ∈ separators E' (quotes.map e) (ml.map e) (e escape) ↔ w ∈ (separators E quotes ml escape).map e := by
  unfold separators
  rw [hsort', code_isEmpty h]
  have : ∀ w', w' ∈ (E.sort (quotes ++ ml ++
      if escape.isEmpty = true then [] else quotes.map (escape ++ ·) ++ [escape ++ escape])).map e ↔
      w' ∈ (quotes ++ ml ++ if escape.isEmpty = true then [] else quotes.map (escape ++ ·) ++ [escape ++ escape]).map e := by
    intro w'
    simp only [List.mem_map, hsort]
  rw [this]
  split
  · simp
  · simp only [List.mem_append, List.mem_map, List.map_append, List.map_cons, List.map_nil, List.mem_singleton, h.append,
      List.map_map, Function.comp]

theorem code_sq_gen (h : Code e) (hc : CacheOK E.cache) (hc' : CacheOK E'.cache)
    (hsort : ∀ l w, w ∈ E.sort l ↔ w ∈ l) (hsort' : ∀ l w, w ∈ E'.sort l ↔ w ∈ l)
    (hnl : e [E.nl] = [E'.nl]) (s : List α) (quotes : List (List α)) (escape : List α) (state : List α)
    (hloop : ∀ pairs : List (List α × List α), (∀ p ∈ pairs, (∀ c ∈ p.1, c ∈ s) ∧ ∀ c ∈ p.2, c ∈ s) →
      splitQuotedStrings E s quotes escape ml state = .ok (loop E (quotes ++ ml) ml state state [] pairs) →
      loop E' ((quotes ++ ml).map e) (ml.map e) (e state) (e state) [] (pairs.map (fun p => (e p.1, e p.2))) =
        ((loop E (quotes ++ ml) ml state state [] pairs).1.map (encT e), (loop E (quotes ++ ml) ml state state [] pairs).2)) :
    splitQuotedStrings E' (e s) (quotes.map e) (e escape) (ml.map e) (e state) =
      (splitQuotedStrings E s quotes escape ml state).map (fun r => (r.1.map (encT e), r.2)) := by
  have hany : ∀ l : List (List α), (l.map e).any List.isEmpty = l.any List.isEmpty := by
    intro l
    rw [List.any_map]
    congr 1
    funext a
    exact code_isEmpty h a
  unfold splitQuotedStrings
  rw [hany, hany, ← List.map_append, List.isEmpty_map, code_isEmpty h, code_contains h, code_repeated h, code_repeated h]
  have hin : (quotes.map e).any (fun q => (ml.map e).contains q) = quotes.any (fun q => ml.contains q) := by
    rw [List.any_map]
    congr 1
    funext a
    exact code_contains h ml a
  rw [hin]
  by_cases h1 : (quotes.any List.isEmpty || ml.any List.isEmpty) = true
  · rw [if_pos h1, if_pos h1]; rfl
  rw [if_neg h1, if_neg h1]
  by_cases h2 : (quotes ++ ml).isEmpty = true
  · rw [if_pos h2, if_pos h2]; rfl
  rw [if_neg h2, if_neg h2]
  split
  · rfl
  rename_i h3
  split
  · rfl
  rename_i h4
  split
  · rfl
  rename_i h5
  have he : [] ∉ separators E quotes ml escape := by
    unfold separators
    rw [hsort]
    simp only [Bool.or_eq_true, List.any_eq_true, List.isEmpty_iff, not_or, not_exists, not_and] at h1
    intro hmem
    rw [List.mem_append, List.mem_append] at hmem
    rcases hmem with (hmem | hmem) | hmem
    · exact h1.1 _ hmem rfl
    · exact h1.2 _ hmem rfl
    · split at hmem
      · simp at hmem
      · rename_i h0
        have h0 : escape ≠ [] := by simpa using h0
        rw [List.mem_append, List.mem_map] at hmem
        rcases hmem with ⟨q, _, hq⟩ | hmem
        · exact h0 (List.append_eq_nil_iff.1 hq).1
        · simp at hmem; exact h0 hmem
  have hne : separators E quotes ml escape ≠ [] := by
    intro h0
    have : ∀ w, w ∉ separators E quotes ml escape := by rw [h0]; simp
    unfold separators at this
    simp only [hsort, List.mem_append, not_or] at this
    apply h2
    rw [List.isEmpty_iff, List.append_eq_nil_iff]
    exact ⟨List.eq_nil_iff_forall_not_mem.2 (fun w => (this w).1.1), List.eq_nil_iff_forall_not_mem.2 (fun w => (this w).1.2)⟩
  have hset := C38_multisplit_set hc' (code_separators h hsort hsort' quotes ml escape) E'.nl (e s) .asPairs (some (-1))
    false true .no
  have hcode := code_multisplit h hc hc' he hnl s .asPairs (some (-1)) false true .no
  rw [hset, hcode]
  obtain ⟨items, hi, hlossless⟩ := C37_multisplit_keep_lossless (nl := E.nl) hc hne he s .asPairs (by simp) (some (-1))
    false true
  rw [hi]
  simp only [Except.map]
  have hpairs : (items.map (Item.onStr e)).map pairOf = (items.map pairOf).map (fun p => (e p.1, e p.2)) := by
    rw [List.map_map, List.map_map]
    apply List.map_congr_left
    intro x _
    exact pairOf_onStr h x
  rw [hpairs]
  have hmem : ∀ p ∈ items.map pairOf, (∀ c ∈ p.1, c ∈ s) ∧ ∀ c ∈ p.2, c ∈ s := by
    intro p hp
    obtain ⟨x, hx, rfl⟩ := List.mem_map.1 hp
    have hsub : ∀ c, c ∈ (match x with | .str t => t | .pair a b => a ++ b) → c ∈ s := by
      intro c hc
      rw [← hlossless, List.mem_flatten]
      exact ⟨_, List.mem_map_of_mem hx, hc⟩
    cases x with
    | str t => exact ⟨fun c hc => hsub c hc, fun c hc => by simp [pairOf] at hc⟩
    | pair a b => exact ⟨fun c hc => hsub c (by simp [show c ∈ a from hc]), fun c hc => hsub c (by simp [show c ∈ b from hc])⟩
  rw [hloop (items.map pairOf) hmem]
  unfold splitQuotedStrings
  rw [if_neg h1, if_neg h2, if_neg h3, if_neg h4, if_neg h5, hi]

theorem code_sq (h : Code e) (hc : CacheOK E.cache) (hc' : CacheOK E'.cache)
    (hsort : ∀ l w, w ∈ E.sort l ↔ w ∈ l) (hsort' : ∀ l w, w ∈ E'.sort l ↔ w ∈ l)
    (hnl : e [E.nl] = [E'.nl]) (s : List α) (hm : SameLines e E E' s) (quotes : List (List α)) (escape : List α)
    (state : List α) :
    splitQuotedStrings E' (e s) (quotes.map e) (e escape) (ml.map e) (e state) =
      (splitQuotedStrings E s quotes escape ml state).map (fun r => (r.1.map (encT e), r.2)) :=
  code_sq_gen h hc hc' hsort hsort' hnl s quotes escape state (fun pairs hp _ =>
    code_loop h hm (quotes ++ ml) pairs state state [] (by simp) hp)

theorem code_sq_le (h : Code e) (hc : CacheOK E.cache) (hc' : CacheOK E'.cache)
    (hsort : ∀ l w, w ∈ E.sort l ↔ w ∈ l) (hsort' : ∀ l w, w ∈ E'.sort l ↔ w ∈ l)
    (hnl : e [E.nl] = [E'.nl]) (s : List α) (hm : NoNewLines e E E') (quotes : List (List α)) (escape : List α)
    (state : List α) (hok : ∀ r, splitQuotedStrings E s quotes escape ml state = .ok r → r.2 = none) :
    splitQuotedStrings E' (e s) (quotes.map e) (e escape) (ml.map e) (e state) =
      (splitQuotedStrings E s quotes escape ml state).map (fun r => (r.1.map (encT e), r.2)) :=
  code_sq_gen h hc hc' hsort hsort' hnl s quotes escape state (fun pairs hp heq => by
    have hn := hok _ heq
    rw [hn]
    exact code_loop_le h hm (quotes ++ ml) pairs state state [] hn)

/-! ### Multiline quotes: line breaks do not matter -/

/-- An `Env` by which no text has more than one line. -/
def oneLine (E : Env α) : Env α := { E with nlines := fun _ => 0 }

theorem bad_ml {E : Env α} {quote : List α} (hq : quote = [] ∨ quote ∈ ml) (text : List α) :
    bad E ml quote text = false := by
  unfold bad
  rcases hq with rfl | hq
  · simp
  · have : ml.contains quote = true := List.contains_iff_mem.2 hq
    rw [this]; simp

theorem finish_oneLine (E : Env α) (state quote : List α) (hq : quote = [] ∨ quote ∈ ml) (buffer : List (List α)) :
    finish (oneLine E) ml state quote buffer = finish E ml state quote buffer := by
  unfold finish
  simp only [bad_ml hq]

theorem loop_oneLine (E : Env α) : ∀ (pairs : List (List α × List α)) (state quote : List α) (buffer : List (List α)),
    (quote = [] ∨ quote ∈ ml) → loop (oneLine E) ml ml state quote buffer pairs = loop E ml ml state quote buffer pairs := by
  intro pairs
  induction pairs with
  | nil => intro state quote buffer hq; exact finish_oneLine E state quote hq buffer
  | cons p rest ih =>
    obtain ⟨lit, sep⟩ := p
    intro state quote buffer hq
    simp only [loop, bad_ml hq, ih state quote _ hq, ih [] [] _ (.inl rfl)]
    by_cases hsep : ml.contains sep = true
    · rw [ih state sep _ (.inr (List.contains_iff_mem.1 hsep))]
    · have hsep' : ml.contains sep = false := by simpa using hsep
      simp only [hsep', Bool.not_false, if_true]

theorem sq_oneLine (E : Env α) (s : List α) (escape state : List α) :
    splitQuotedStrings (oneLine E) s [] escape ml state = splitQuotedStrings E s [] escape ml state := by
  unfold splitQuotedStrings
  simp only [List.nil_append]
  split
  · rfl
  split
  · rfl
  split
  · rfl
  rename_i h
  split
  · rfl
  split
  · rfl
  have hst : state = [] ∨ state ∈ ml := by
    by_cases h0 : state = []
    · exact .inl h0
    · right
      simp only [Bool.and_eq_true, Bool.not_eq_true', not_and, Bool.not_eq_false] at h
      exact List.contains_iff_mem.1 (h (by simpa using h0))
  have hsep : separators (oneLine E) [] ml escape = separators E [] ml escape := rfl
  have hnl : (oneLine E).nl = E.nl := rfl
  have hca : (oneLine E).cache = E.cache := rfl
  rw [hsep, hnl, hca]
  cases Big.MS.multisplit E.nl E.cache s (separators E [] ml escape) .asPairs (some (-1)) false true .no with
  | error _ => rfl
  | ok items => simp only [loop_oneLine E _ _ _ _ hst]

end

/-! ### Line breaks -/

theorem str_onFirst_length (c : Char) (l : List (List Char)) : (PyStr.onFirst c l).length = max 1 l.length := by
  cases l <;> simp [PyStr.onFirst]

theorem bytes_onFirst_length (c : UInt8) (l : List (List UInt8)) : (PyBytes.onFirst c l).length = max 1 l.length := by
  cases l <;> simp [PyBytes.onFirst]

theorem str_lines_pos : ∀ s : List Char, s ≠ [] → 0 < (PyStr.splitlines false s).length
  | [], h => absurd rfl h
  | [c], _ => by simp only [PyStr.splitlines]; split <;> simp
  | c :: d :: t, _ => by
    simp only [PyStr.splitlines]
    split
    · simp
    · split
      · simp
      · rw [str_onFirst_length]; omega

theorem bytes_lines_pos : ∀ s : List UInt8, s ≠ [] → 0 < (PyBytes.splitlines false s).length
  | [], h => absurd rfl h
  | [c], _ => by simp only [PyBytes.splitlines]; split <;> simp
  | c :: d :: t, _ => by
    simp only [PyBytes.splitlines]
    split
    · simp
    · split
      · simp
      · rw [bytes_onFirst_length]; omega

/-- More than one line, or a line break at the end: there is a line break. -/
theorem str_lines : ∀ s : List Char,
    (1 < (PyStr.splitlines false s).length ∨ ∃ c, s.getLast? = some c ∧ PyStr.isBreak c = true) ↔
      s.any PyStr.isBreak = true
  | [] => by simp [PyStr.splitlines]
  | [c] => by
    simp only [PyStr.splitlines, List.any_cons, List.any_nil, Bool.or_false]
    constructor
    · rintro (h | ⟨d, h1, h2⟩)
      · split at h <;> simp at h
      · simp at h1; exact h1 ▸ h2
    · intro h; exact .inr ⟨c, rfl, h⟩
  | c :: d :: t => by
    have ih := str_lines (d :: t)
    have ih2 := str_lines t
    have hp := str_lines_pos (d :: t) (by simp)
    simp only [PyStr.splitlines]
    rw [List.getLast?_cons_cons, List.any_cons]
    by_cases hcr : c = '\r' ∧ d = '\n'
    · rw [if_pos hcr]
      obtain ⟨rfl, rfl⟩ := hcr
      have hb : PyStr.isBreak '\r' = true := by decide +kernel
      have hn : PyStr.isBreak '\n' = true := by decide +kernel
      simp only [hb, Bool.true_or, iff_true]
      cases t with
      | nil => exact .inr ⟨'\n', rfl, hn⟩
      | cons x t =>
        have := str_lines_pos (x :: t) (by simp)
        exact .inl (by simp only [List.length_cons]; omega)
    · rw [if_neg hcr]
      by_cases hc : PyStr.isBreak c = true
      · rw [if_pos hc]
        simp only [hc, Bool.true_or, iff_true]
        exact .inl (by simp only [List.length_cons]; omega)
      · rw [if_neg hc, str_onFirst_length]
        have hc' : PyStr.isBreak c = false := by simpa using hc
        rw [hc', Bool.false_or, ← ih]
        constructor
        · rintro (h | h)
          · exact .inl (by omega)
          · exact .inr h
        · rintro (h | h)
          · exact .inl (by omega)
          · exact .inr h

theorem bytes_lines : ∀ s : List UInt8,
    (1 < (PyBytes.splitlines false s).length ∨ ∃ c, s.getLast? = some c ∧ PyBytes.isBreak c = true) ↔
      s.any PyBytes.isBreak = true
  | [] => by simp [PyBytes.splitlines]
  | [c] => by
    simp only [PyBytes.splitlines, List.any_cons, List.any_nil, Bool.or_false]
    constructor
    · rintro (h | ⟨d, h1, h2⟩)
      · split at h <;> simp at h
      · simp at h1; exact h1 ▸ h2
    · intro h; exact .inr ⟨c, rfl, h⟩
  | c :: d :: t => by
    have ih := bytes_lines (d :: t)
    have hp := bytes_lines_pos (d :: t) (by simp)
    simp only [PyBytes.splitlines]
    rw [List.getLast?_cons_cons, List.any_cons]
    by_cases hcr : c = 13 ∧ d = 10
    · rw [if_pos hcr]
      obtain ⟨rfl, rfl⟩ := hcr
      have hb : PyBytes.isBreak 13 = true := by decide +kernel
      have hn : PyBytes.isBreak 10 = true := by decide +kernel
      simp only [hb, Bool.true_or, iff_true]
      cases t with
      | nil => exact .inr ⟨10, rfl, hn⟩
      | cons x t =>
        have := bytes_lines_pos (x :: t) (by simp)
        exact .inl (by simp only [List.length_cons]; omega)
    · rw [if_neg hcr]
      by_cases hc : PyBytes.isBreak c = true
      · rw [if_pos hc]
        simp only [hc, Bool.true_or, iff_true]
        exact .inl (by simp only [List.length_cons]; omega)
      · rw [if_neg hc, bytes_onFirst_length]
        have hc' : PyBytes.isBreak c = false := by simpa using hc
        rw [hc', Bool.false_or, ← ih]
        constructor
        · rintro (h | h)
          · exact .inl (by omega)
          · exact .inr h
        · rintro (h | h)
          · exact .inl (by omega)
          · exact .inr h

/-- The test of text.py:1907-1910 asks whether the text has a line break. -/
theorem str_multi (t : List Char) (h : t ≠ []) : multi pyStr t = t.any PyStr.isBreak := by
  have hx : PyStr.isBreak 'x' = false := by decide +kernel
  have hlast : t.getLast? = some (t.getLast h) := List.getLast?_eq_some_getLast h
  rw [Bool.eq_iff_iff, ← str_lines t]
  unfold multi pyStr
  simp only [hlast, Option.toList_some, List.cons_append, List.nil_append, Bool.or_eq_true, decide_eq_true_eq,
    Option.some.injEq, exists_eq_left']
  have hk : ((PyStr.splitlines false [t.getLast h, 'x']).length > 1) ↔ PyStr.isBreak (t.getLast h) = true := by
    simp only [PyStr.splitlines]
    rw [if_neg (fun h => absurd h.2 (by decide)), hx]
    by_cases hb : PyStr.isBreak (t.getLast h) = true
    · simp [hb]
    · simp [hb, PyStr.onFirst]
  rw [hk]

theorem bytes_multi (t : List UInt8) (h : t ≠ []) : multi pyBytes t = t.any PyBytes.isBreak := by
  have hx : PyBytes.isBreak 120 = false := by decide +kernel
  have hlast : t.getLast? = some (t.getLast h) := List.getLast?_eq_some_getLast h
  rw [Bool.eq_iff_iff, ← bytes_lines t]
  unfold multi pyBytes
  simp only [hlast, Option.toList_some, List.cons_append, List.nil_append, Bool.or_eq_true, decide_eq_true_eq,
    Option.some.injEq, exists_eq_left']
  have hk : ((PyBytes.splitlines false [t.getLast h, 120]).length > 1) ↔ PyBytes.isBreak (t.getLast h) = true := by
    simp only [PyBytes.splitlines]
    rw [if_neg (fun h => absurd h.2 (by decide)), hx]
    by_cases hb : PyBytes.isBreak (t.getLast h) = true
    · simp [hb]
    · simp [hb, PyBytes.onFirst]
  rw [hk]

end Big.SQ
