import Verif.Multisplit.Strip
/-! # C43: normalize_whitespace -/
namespace Big.MS
open Big.Rx Spec

variable {α : Type} [DecidableEq α] {nl : α} {cache : List (List α) → Option (List (List α))}
  {seps : List (List α)}

theorem join_texts (repl : List α) : ∀ l : List (List α), l.length % 2 = 1 →
    join repl (texts l) = replaced repl l
  | [], h => by simp at h
  | [n], _ => rfl
  | n :: w :: r, h => by
    have hr : r.length % 2 = 1 := by simp only [List.length_cons] at h; omega
    rw [texts, replaced, ← join_texts repl r hr]
    match r, hr with
    | [], h => simp at h
    | [a], _ => simp [texts, join]
    | a :: b :: r, _ => simp [texts, join]

/-- The general path: every maximal run of separators becomes one replacement, and the rest of the
string is unchanged. -/
theorem normGeneral_spec (hc : CacheOK cache) (hne : seps ≠ []) (he : [] ∉ seps) (repl s : List α)
    {l : List (List α)} (h : Splits seps false false s l) :
    normGeneral cache repl s seps = replaced repl l := by
  obtain ⟨l', h1, h2⟩ := msGen_spec hc hne he false false s
  have e : l' = l := C38_splits_unique h1 h
  subst e
  unfold normGeneral
  have := h2 .no (some (-1)) .no (by simp)
  simp only [ne_eq, not_true_eq_false, decide_false, allowed, if_true, cut, render] at this
  rw [this, List.map_map, ← join_texts repl l' (splits_odd h1)]
  simp [Function.comp_def, Item.get]

/-- The separators are exactly the space characters `sp`, and perhaps longer strings of them. -/
def SpaceSet (sp : α → Bool) (seps : List (List α)) : Prop :=
  (∀ c, sp c = true ↔ [c] ∈ seps) ∧ ∀ w ∈ seps, ∀ c ∈ w, sp c = true

/-- A list of pieces as `str.split` sees them: texts without space characters, separators made of
them, and no empty text between separators. -/
structure Words (sp : α → Bool) (l : List (List α)) : Prop where
  odd : l.length % 2 = 1
  txt : ∀ t ∈ texts l, ∀ c ∈ t, sp c = false
  sep : ∀ w ∈ Spec.seps l, w ≠ [] ∧ ∀ c ∈ w, sp c = true
  inner : ∀ t ∈ (texts l).tail.dropLast, t ≠ []

theorem concat_all {sp : α → Bool} (hsp : ∀ w ∈ seps, ∀ c ∈ w, sp c = true) {m : List α}
    (h : Concat seps m) : ∀ c ∈ m, sp c = true := by
  induction h with
  | nil => simp
  | cons hw _ ih =>
    intro c hc
    rcases List.mem_append.1 hc with h | h
    · exact hsp _ hw c h
    · exact ih c h

theorem splits_words {sp : α → Bool} (he : [] ∉ seps) (hs : SpaceSet sp seps) {s : List α}
    {l : List (List α)} (h : Splits seps false false s l) : Words sp l := by
  refine ⟨splits_odd h, ?_, ?_, C38_inner_texts_nonempty h⟩
  · intro t ht c hc
    cases hsp : sp c with
    | false => rfl
    | true =>
      exfalso
      obtain ⟨a, b, rfl⟩ := List.append_of_mem hc
      exact C38_texts_contain_no_separator he h _ ht [c] ((hs.1 c).1 hsp) ⟨a, b, by simp⟩
  · intro w hw
    have := C38_separator_pieces he h w hw
    simp only [Bool.false_eq_true, if_false] at this
    exact ⟨this.1, concat_all hs.2 this.2⟩

theorem strSplit_space {sp : α → Bool} : ∀ {w : List α}, (∀ c ∈ w, sp c = true) → ∀ rest,
    strSplit sp (w ++ rest) = strSplit sp rest
  | [], _, _ => rfl
  | c :: w, h, rest => by
    rw [List.cons_append, strSplit, if_pos (h c (by simp))]
    exact strSplit_space (fun d hd => h d (by simp [hd])) rest

theorem strSplit_word {sp : α → Bool} : ∀ {n : List α}, n ≠ [] → (∀ c ∈ n, sp c = false) → ∀ rest,
    (∀ c t, rest = c :: t → sp c = true) → strSplit sp (n ++ rest) = n :: strSplit sp rest
  | [], h, _, _, _ => absurd rfl h
  | [c], _, h, rest, hr => by
    have hc : sp c = false := h c (by simp)
    cases rest with
    | nil => simp [strSplit, hc, addChar]
    | cons d t =>
      have hd := hr d t rfl
      rw [List.singleton_append, strSplit, if_neg (by simp [hc])]
      cases hx : strSplit sp (d :: t) with
      | nil => rfl
      | cons x xs => simp [addChar, hd]
  | c :: d :: n, _, h, rest, hr => by
    have hc : sp c = false := h c (by simp)
    have hd : sp d = false := h d (by simp)
    have ih := strSplit_word (n := d :: n) (by simp) (fun e he => h e (by simp at he ⊢; grind)) rest hr
    rw [List.cons_append, strSplit, if_neg (by simp [hc]), ih]
    simp [addChar, hd]

theorem strSplit_texts {sp : α → Bool} : ∀ l : List (List α), l.length % 2 = 1 →
    (∀ t ∈ texts l, ∀ c ∈ t, sp c = false) →
    (∀ w ∈ Spec.seps l, w ≠ [] ∧ ∀ c ∈ w, sp c = true) →
    strSplit sp l.flatten = (texts l).filter (fun t => decide (t ≠ []))
  | [], h, _, _ => by simp at h
  | [n], _, ht, _ => by
    by_cases hn : n = []
    · subst hn; simp [texts, strSplit]
    · have := strSplit_word hn (ht n (by simp [texts])) [] (by simp)
      simpa [texts, hn, strSplit] using this
  | n :: w :: r, ho, ht, hs => by
    have hr : r.length % 2 = 1 := by simp only [List.length_cons] at ho; omega
    have ih := strSplit_texts r hr (fun t h => ht t (by simp [texts, h]))
      (fun v hv => hs v (by simp [Spec.seps, hv]))
    have hw := hs w (by simp [Spec.seps])
    simp only [List.flatten_cons, texts]
    have hwr : strSplit sp (w ++ r.flatten) = strSplit sp r.flatten := strSplit_space hw.2 _
    by_cases hn : n = []
    · subst hn; simp [hwr, ih]
    · rw [strSplit_word hn (ht n (by simp [texts])) _ ?_, hwr, ih]
      · simp [hn]
      · intro c t e
        cases w with
        | nil => exact absurd rfl hw.1
        | cons d w =>
          obtain ⟨rfl, _⟩ := List.cons.inj e
          exact hw.2 d (by simp)

/-- The texts are the first, the inner and the last. -/
theorem texts_split : ∀ l : List (List α), l.length % 2 = 1 → 3 ≤ l.length →
    ∃ a inner b, texts l = a :: (inner ++ [b]) ∧ (texts l).tail.dropLast = inner := by
  intro l ho h3
  have hl := texts_length l ho
  cases ht : texts l with
  | nil => rw [ht] at hl; simp at hl
  | cons a r =>
    have hr : r ≠ [] := by rintro rfl; rw [ht] at hl; simp at hl; omega
    refine ⟨a, r.dropLast, r.getLast hr, by rw [List.dropLast_concat_getLast], rfl⟩

theorem head_flatten {sp : α → Bool} {l : List (List α)} (h : Words sp l) (h3 : 3 ≤ l.length) :
    ((l.flatten.head?.map sp).getD false = true ↔ (texts l).head? = some []) ∧
    ((l.flatten.getLast?.map sp).getD false = true ↔ (texts l).getLast? = some []) := by
  have first : ∀ l : List (List α), l.length % 2 = 1 → 3 ≤ l.length →
      (∀ t ∈ texts l, ∀ c ∈ t, sp c = false) → (∀ w ∈ Spec.seps l, w ≠ [] ∧ ∀ c ∈ w, sp c = true) →
      ((l.flatten.head?.map sp).getD false = true ↔ (texts l).head? = some []) := by
    intro l _ h3 ht hs
    match l, h3 with
    | [], h => simp at h
    | [_], h => simp at h
    | n :: w :: r, _ =>
      have hw := hs w (by simp [Spec.seps])
      cases n with
      | nil =>
        cases w with
        | nil => exact absurd rfl hw.1
        | cons d w => simp [texts, hw.2 d (by simp)]
      | cons c n => simp [texts, ht (c :: n) (by simp [texts]) c (by simp)]
  refine ⟨first l h.odd h3 h.txt h.sep, ?_⟩
  have hm := first (mirror l) (by rw [mirror_length]; exact h.odd) (by rw [mirror_length]; exact h3) ?_ ?_
  · rw [mirror_flatten, List.head?_reverse, texts_mirror l h.odd] at hm
    rw [hm, mirror, List.head?_reverse, List.getLast?_map]
    cases (texts l).getLast? <;> simp
  · rw [texts_mirror l h.odd]
    intro t ht c hc
    rw [mirror, List.mem_reverse, List.mem_map] at ht
    obtain ⟨u, hu, rfl⟩ := ht
    exact h.txt u hu c (List.mem_reverse.1 hc)
  · rw [seps_mirror l h.odd]
    intro t ht
    rw [mirror, List.mem_reverse, List.mem_map] at ht
    obtain ⟨u, hu, rfl⟩ := ht
    exact ⟨by simpa using (h.sep u hu).1, fun d hd => (h.sep u hu).2 d (List.mem_reverse.1 hd)⟩

/-- The fast path on a string made of words. -/
theorem normFast_words {sp : α → Bool} (repl : List α) {l : List (List α)} (h : Words sp l)
    (hne : l.flatten ≠ []) : normFast sp repl l.flatten = replaced repl l := by
  have hst := strSplit_texts l h.odd h.txt h.sep
  by_cases h3 : 3 ≤ l.length
  · obtain ⟨a, inner, b, ht, hi⟩ := texts_split l h.odd h3
    have hinner := h.inner
    rw [hi] at hinner
    obtain ⟨hh, hl⟩ := head_flatten h h3
    rw [ht] at hh hl
    simp only [List.head?_cons, Option.some.injEq] at hh
    rw [show (a :: (inner ++ [b])).getLast? = some b by
      rw [← List.cons_append, List.getLast?_append]; simp, Option.some.injEq] at hl
    rw [← join_texts repl l h.odd, ht]
    unfold normFast
    by_cases hall : l.flatten.all sp = true
    · -- only separators
      have hempty : ∀ t ∈ texts l, t = [] := by
        intro t htm
        have hsub : ∀ (l : List (List α)), ∀ t ∈ texts l, t ∈ l := by
          intro l
          induction l using texts.induct with
          | case1 => simp [texts]
          | case2 n => simp [texts]
          | case3 n w r ih =>
            intro t ht
            simp only [texts, List.mem_cons] at ht ⊢
            rcases ht with rfl | ht
            · exact .inl rfl
            · exact .inr (.inr (ih t ht))
        cases t with
        | nil => rfl
        | cons c t =>
          exfalso
          have h1 := h.txt _ htm c (by simp)
          have h2 : c ∈ l.flatten := List.mem_flatten.2 ⟨_, hsub l _ htm, by simp⟩
          rw [List.all_eq_true] at hall
          rw [hall c h2] at h1; simp at h1
      rw [ht] at hempty
      have ha : a = [] := hempty a (by simp)
      have hb : b = [] := hempty b (by simp)
      have hin : inner = [] := by
        cases inner with
        | nil => rfl
        | cons x xs => exact absurd (hempty x (by simp)) (hinner x (by simp))
      rw [if_pos hall, ha, hb, hin]
      simp [join]
    · rw [if_neg hall, hst, ht]
      have hfi : inner.filter (fun t => decide (t ≠ [])) = inner := by
        rw [List.filter_eq_self]; intro t h; simpa using hinner t h
      simp only [List.filter_cons, List.filter_append, hfi, List.filter_nil]
      by_cases ha : a = [] <;> by_cases hb : b = []
      · have e1 := hh.2 ha
        have e2 := hl.2 hb
        simp only [e1, e2, if_true]
        simp [ha, hb]
      · have e1 := hh.2 ha
        have e2 : (Option.map sp l.flatten.getLast?).getD false = false := by
          rw [Bool.eq_false_iff]; exact fun h => hb (hl.1 h)
        simp only [e1, e2, if_true]
        simp [ha, hb]
      · have e1 : (Option.map sp l.flatten.head?).getD false = false := by
          rw [Bool.eq_false_iff]; exact fun h => ha (hh.1 h)
        have e2 := hl.2 hb
        simp only [e1, e2, if_true]
        simp [ha, hb]
      · have e1 : (Option.map sp l.flatten.head?).getD false = false := by
          rw [Bool.eq_false_iff]; exact fun h => ha (hh.1 h)
        have e2 : (Option.map sp l.flatten.getLast?).getD false = false := by
          rw [Bool.eq_false_iff]; exact fun h => hb (hl.1 h)
        simp only [e1, e2]
        simp [ha, hb]
  · have : l.length = 1 := by have := h.odd; omega
    obtain ⟨n, rfl⟩ := List.length_eq_one_iff.1 this
    have hn : n ≠ [] := by simpa using hne
    have hcl := h.txt n (by simp [texts])
    have hsplit : strSplit sp [n].flatten = [n] := by rw [hst]; simp [texts, hn]
    unfold normFast
    have hfl : [n].flatten = n := by simp
    rw [hsplit, hfl]
    rw [if_neg]
    · cases n with
      | nil => exact absurd rfl hn
      | cons c t =>
        have h1 : sp c = false := hcl c (by simp)
        have h2 : sp ((c :: t).getLast (by simp)) = false := hcl _ (List.getLast_mem _)
        rw [List.getLast?_eq_some_getLast (by simp)]
        simp [h1, h2, join, replaced]
    · cases n with
      | nil => exact absurd rfl hn
      | cons c t => simp [hcl c (by simp)]

/-- C43: every maximal run of separators becomes one replacement, everything else is unchanged. `l`
is the string split at the runs. Both paths; on the fast path the separators are the space
characters (and CR LF). -/
theorem C43_runs_become_the_replacement (hc : CacheOK cache) (hne : seps ≠ []) (he : [] ∉ seps)
    (sp : α → Bool) (fast : Bool) (hfast : fast = true → SpaceSet sp seps) (s repl : List α) :
    ∃ l, Splits seps false false s l ∧
      normalizeWhitespace cache sp fast s seps repl
        = .ok (if s = [] then [] else replaced repl l) := by
  obtain ⟨l, h1, _⟩ := msGen_spec hc hne he false false s
  refine ⟨l, h1, ?_⟩
  unfold normalizeWhitespace
  rw [if_neg he, if_neg hne]
  by_cases hs : s = []
  · simp [hs]
  · rw [if_neg hs, if_neg hs]
    cases fast with
    | false => simp only [Bool.false_eq_true, if_false]; rw [normGeneral_spec hc hne he repl s h1]
    | true =>
      simp only [if_true]
      have hw := splits_words he (hfast rfl) h1
      have := normFast_words repl hw (by rw [h1.1]; exact hs)
      rw [h1.1] at this
      rw [this]

/-- The str fast path gives the same result as the general path. -/
theorem C43_fast_path_agrees (hc : CacheOK cache) (hne : seps ≠ []) (he : [] ∉ seps)
    (sp : α → Bool) (hs : SpaceSet sp seps) (s repl : List α) :
    normalizeWhitespace cache sp true s seps repl = normalizeWhitespace cache sp false s seps repl := by
  obtain ⟨l, h1, h2⟩ := C43_runs_become_the_replacement hc hne he sp true (fun _ => hs) s repl
  obtain ⟨l', h1', h2'⟩ := C43_runs_become_the_replacement hc hne he sp false (by simp) s repl
  rw [h2, h2', C38_splits_unique h1 h1']

/-- The alternating list with every separator replaced. -/
def withSep (repl : List α) : List (List α) → List (List α)
  | [] => []
  | [n] => [n]
  | n :: _ :: r => n :: repl :: withSep repl r

theorem withSep_facts (repl : List α) : ∀ l : List (List α),
    (withSep repl l).length = l.length ∧ texts (withSep repl l) = texts l ∧
    (∀ w ∈ Spec.seps (withSep repl l), w = repl) ∧ (withSep repl l).flatten = replaced repl l ∧
    replaced repl (withSep repl l) = replaced repl l
  | [] => by simp [withSep, texts, Spec.seps, replaced]
  | [n] => by simp [withSep, texts, Spec.seps, replaced]
  | n :: w :: r => by
    obtain ⟨h1, h2, h3, h4, h5⟩ := withSep_facts repl r
    refine ⟨by simp [withSep, h1], by simp [withSep, texts, h2], ?_, by simp [withSep, replaced, h4],
      by simp [withSep, replaced, h5]⟩
    intro v hv
    simp only [withSep, Spec.seps, List.mem_cons] at hv
    rcases hv with rfl | hv
    · rfl
    · exact h3 v hv

/-- With the default replacement, a single space character, normalizing twice is normalizing once
(for separators that are single characters, and perhaps CR LF, as the default ones). -/
theorem C43_idempotent (hc : CacheOK cache) (hne : seps ≠ []) (he : [] ∉ seps) (sp : α → Bool)
    (hs : SpaceSet sp seps) (fast : Bool) (space : α) (hspace : sp space = true) (s t : List α)
    (h : normalizeWhitespace cache sp fast s seps [space] = .ok t) :
    normalizeWhitespace cache sp fast t seps [space] = .ok t := by
  have tofast : ∀ s, normalizeWhitespace cache sp fast s seps [space]
      = normalizeWhitespace cache sp true s seps [space] := by
    intro s
    cases fast with
    | true => rfl
    | false => exact (C43_fast_path_agrees hc hne he sp hs s _).symm
  rw [tofast] at h ⊢
  obtain ⟨l, h1, h2⟩ := C43_runs_become_the_replacement hc hne he sp true (fun _ => hs) s [space]
  rw [h] at h2
  simp only [Except.ok.injEq] at h2
  by_cases hs0 : s = []
  · rw [if_pos hs0] at h2
    subst h2
    simp [normalizeWhitespace, hne, he]
  · rw [if_neg hs0] at h2
    have hw := splits_words he hs h1
    obtain ⟨f1, f2, f3, f4, f5⟩ := withSep_facts [space] l
    have hw' : Words sp (withSep [space] l) := by
      refine ⟨by rw [f1]; exact hw.odd, by rw [f2]; exact hw.txt, ?_, by rw [f2]; exact hw.inner⟩
      intro w hwm
      rw [f3 w hwm]
      simp [hspace]
    have ht : t ≠ [] := by
      rw [h2, ← f4]
      have hfl := h1.1
      intro e
      match l, hw.odd with
      | [], h => simp at h
      | [n], _ => rw [← hfl] at hs0; simp [withSep] at e hs0; exact hs0 e
      | n :: w :: r, _ => simp [withSep] at e
    have := normFast_words [space] hw' (by rw [f4, ← h2]; exact ht)
    rw [f4, ← h2, f5, ← h2] at this
    simp [normalizeWhitespace, hne, he, ht, this]

/-- An empty separator, or none, raises ValueError. -/
theorem C43_errors (sp : α → Bool) (fast : Bool) (s repl : List α) :
    normalizeWhitespace cache sp fast s seps repl = .error .valueError ↔ seps = [] ∨ [] ∈ seps := by
  unfold normalizeWhitespace
  by_cases h1 : seps = []
  · simp [h1]
  · by_cases h2 : [] ∈ seps
    · simp [h2]
    · rw [if_neg h2, if_neg h1]
      simp only [h1, h2, or_self, iff_false]
      split
      · simp
      · split <;> simp

/-- `str.isspace` of one character, for the characters str_whitespace lists. -/
def isSpace (c : Char) : Bool := decide ([c] ∈ strWhitespace)

/-- The hypotheses hold for `whitespace` and `whitespace_without_crlf`. -/
theorem C43_whitespace_tables : SpaceSet isSpace strWhitespace ∧
    SpaceSet isSpace (withoutCrlf strWhitespace) ∧ [] ∉ strWhitespace ∧ strWhitespace ≠ [] ∧
    [] ∉ withoutCrlf strWhitespace ∧ withoutCrlf strWhitespace ≠ [] := by
  refine ⟨⟨fun c => by simp [isSpace], by decide +kernel⟩, ⟨fun c => ?_, by decide +kernel⟩,
    by decide +kernel, by decide +kernel, by decide +kernel, by decide +kernel⟩
  simp [isSpace, withoutCrlf]

example : normalizeWhitespace strCache isSpace true "   a    b   c".toList
    (withoutCrlf strWhitespace) [' '] = .ok " a b c".toList := by decide +kernel

end Big.MS
