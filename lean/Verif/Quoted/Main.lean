import Verif.Quoted.Props
/-!
# C47: the theorems about split_quoted_strings
-/
namespace Big.SQ
open Big.MS Big.MS.Spec

variable {α : Type} [DecidableEq α] {E : Env α}

/-- The separators, as documented, in no particular order: the quote marks, and if there is an escape
string, that followed by a quote mark of `quotes` or by itself. -/
def Separators (quotes ml : List (List α)) (escape : List α) : List (List α) :=
  quotes ++ ml ++ (if escape = [] then [] else quotes.map (escape ++ ·) ++ [escape ++ escape])

omit [DecidableEq α] in
theorem alternates_congr {a b : List (List α)} (h : ∀ w, w ∈ a ↔ w ∈ b) {sp : Bool} :
    ∀ l, Alternates a sp l → Alternates b sp l
  | [], h' => h'
  | [n], h' => fun x y e => (noSep_congr h).1 (h' x y e)
  | n :: w :: rest, h' =>
    ⟨fun x y e hy => (noSep_congr h).1 (h'.1 x y e hy), (sepAt_congr h).1 h'.2.1,
      alternates_congr h rest h'.2.2⟩

/-- C47: whatever the string, the quote marks, the escape and the initial state: let `L` be the string
split at every quote mark and escape sequence. Every tuple yielded is a quoted or unquoted part of `L`
as `TupleOK` says; if no exception is raised, joining all strings of all tuples recreates the string,
and otherwise (SyntaxError) a prefix of it; and every tuple but the last with a leading quote has the
same trailing quote. -/
theorem C47_split_quoted_strings (hc : CacheOK E.cache) (hsort : ∀ l w, w ∈ E.sort l ↔ w ∈ l)
    (s : List α) (quotes ml : List (List α)) (escape state : List α) (r)
    (h : splitQuotedStrings E s quotes escape ml state = .ok r) :
    ∃ L, Splits (Separators quotes ml escape) true false s L ∧
      (∀ x ∈ r.1, TupleOK (quotes ++ ml) ml (multi E) state L x) ∧
      (r.2 = none → (r.1.map (fun x => x.1 ++ x.2.1 ++ x.2.2)).flatten = s) ∧
      (r.1.map (fun x => x.1 ++ x.2.1 ++ x.2.2)).flatten <+: s ∧
      (r.2 = none ∨ r.2 = some .syntaxError) ∧
      (∀ x ∈ r.1.dropLast, x.1 ≠ [] → x.2.2 = x.1) := by
  unfold splitQuotedStrings at h
  by_cases h1 : (quotes.any List.isEmpty || ml.any List.isEmpty) = true
  · rw [if_pos h1] at h; simp at h
  rw [if_neg h1] at h
  by_cases h2 : (quotes ++ ml).isEmpty = true
  · rw [if_pos h2] at h; simp at h
  rw [if_neg h2] at h
  by_cases h3 : (!state.isEmpty && !(quotes ++ ml).contains state) = true
  · rw [if_pos h3] at h; simp at h
  rw [if_neg h3] at h
  by_cases h4 : (repeated quotes || repeated ml) = true
  · rw [if_pos h4] at h; simp at h
  rw [if_neg h4] at h
  by_cases h5 : (quotes.any (fun q => ml.contains q)) = true
  · rw [if_pos h5] at h; simp at h
  rw [if_neg h5] at h
  have hall : [] ∉ quotes ++ ml := by
    intro hm
    apply h1
    rw [Bool.or_eq_true]
    rcases List.mem_append.1 hm with hm | hm
    · left; exact List.any_eq_true.2 ⟨[], hm, rfl⟩
    · right; exact List.any_eq_true.2 ⟨[], hm, rfl⟩
  have hmem : ∀ w, w ∈ separators E quotes ml escape ↔ w ∈ Separators quotes ml escape := by
    intro w
    unfold separators
    rw [hsort]
    unfold Separators
    by_cases he : escape = []
    · subst he; simp
    · rw [if_neg he, if_neg (by simpa using he)]
  have he : [] ∉ separators E quotes ml escape := by
    rw [hmem]
    unfold Separators
    rw [List.mem_append]
    rintro (hm | hm)
    · exact hall hm
    · by_cases he : escape = []
      · rw [if_pos he] at hm; simp at hm
      · rw [if_neg he] at hm
        simp only [List.mem_append, List.mem_map, List.append_eq_nil_iff, List.mem_singleton] at hm
        rcases hm with ⟨_, _, h, _⟩ | h
        · exact he h
        · exact he (List.append_eq_nil_iff.1 h.symm).1
  have hne : separators E quotes ml escape ≠ [] := by
    intro hn
    have : ∀ w, w ∉ quotes ++ ml := by
      intro w hw
      have : w ∈ separators E quotes ml escape := (hmem w).2 (List.mem_append.2 (.inl hw))
      rw [hn] at this
      simp at this
    apply h2
    cases hl : quotes ++ ml with
    | nil => rfl
    | cons a l => exact absurd (by rw [hl]; simp) (this a)
  obtain ⟨L, hL, _, _, _, hp⟩ := C38_multisplit_splits_exactly (nl := E.nl) hc hne he s false true
    (some (-1)) (.inr rfl)
  rw [hp] at h
  simp only [Except.ok.injEq, List.map_map] at h
  have hpo : (pairOf ∘ fun x : List α × List α => Item.pair x.1 x.2) = id := by funext x; rfl
  rw [hpo, List.map_id] at h
  have hseps := C38_separator_pieces he hL
  have hodd := splits_odd hL
  obtain ⟨hL1, hL2⟩ := hL
  simp only [Bool.false_eq_true, if_false] at hL2
  have hinv : Inv (quotes ++ ml) state [] [] state state [] :=
    { even := rfl
      buf := rfl
      ne := by simp
      unq := fun h => ⟨h, by simp, .inl ⟨rfl, h⟩⟩
      quo := fun hs => ⟨by
          apply Decidable.byContradiction
          intro hn
          apply h3
          rw [Bool.and_eq_true]
          exact ⟨by simpa using hs, by simpa using hn⟩, by simp, .inr ⟨rfl, rfl, rfl⟩⟩ }
  obtain ⟨r1, r2, r3, r4, r5⟩ := loop_spec (E := E) (ml := ml) hall state L [] [] state state [] hodd
    (fun w hw => by
      have := hseps w hw
      simp only [if_true] at this
      intro e
      exact he (e ▸ this)) hinv
  rw [h] at r1 r2 r3 r4 r5
  have e : owed state state ++ ((flat ([] : List (List α × List α))).flatten ++ L.flatten) = s := by
    rw [hL1]
    cases state <;> simp [owed, flat]
  rw [e] at r2 r3
  exact ⟨L, ⟨hL1, by simpa using alternates_congr hmem L hL2⟩, by simpa [flat] using r1, r2, r3, r4, r5⟩

/-! ### no unescaped quote mark in quoted text -/

/-- The escape sequences: the escape string followed by a quote mark of `quotes` or by itself. -/
def Escapes (quotes : List (List α)) (escape : List α) : List (List α) :=
  if escape = [] then [] else quotes.map (escape ++ ·) ++ [escape ++ escape]

/-- `t` has no unescaped `q`, read from the left: an escape sequence is skipped, and where none starts
`q` does not start either. -/
inductive Unescaped (esc : List (List α)) (q : List α) : List α → Prop
  | nil : Unescaped esc q []
  | skip {w t} : w ∈ esc → Unescaped esc q t → Unescaped esc q (w ++ t)
  | one {x t} : ¬ q <+: x :: t → (∀ w ∈ esc, ¬ w <+: x :: t) → Unescaped esc q t →
      Unescaped esc q (x :: t)

/-- No other quote mark covers the start of an occurrence of `q` without being its start: none starts
with `q`, and no proper end of one is the start of `q` or starts with `q`. -/
def NoOverlap (all : List (List α)) (q : List α) : Prop :=
  ∀ w ∈ all, w ≠ q → ¬ q <+: w ∧ ∀ u, u ≠ [] → u ≠ w → u <:+ w → ¬ u <+: q ∧ ¬ q <+: u

section
variable {quotes ml : List (List α)} {escape q : List α}

omit [DecidableEq α] in
theorem unescaped_text {esc : List (List α)} {seps : List (List α)} (hq : q ∈ seps)
    (hs : ∀ w ∈ esc, w ∈ seps)
    {k t : List α} (htk : t <+: k) (ht : Unescaped esc q t) :
    ∀ n : List α, (∀ a b, n = a ++ b → b ≠ [] → NoSep seps (b ++ k)) → Unescaped esc q (n ++ t) := by
  intro n
  induction n with
  | nil => intro _; exact ht
  | cons x n ih =>
    intro hn
    have h0 := hn [] (x :: n) rfl (by simp)
    have hp : x :: (n ++ t) <+: (x :: n) ++ k := by
      obtain ⟨u, hu⟩ := htk
      exact ⟨u, by simp [← hu]⟩
    refine .one ?_ ?_ (ih (fun a b e hb => hn (x :: a) b (by rw [e]; rfl) hb))
    · exact fun h => h0 q hq (h.trans hp)
    · exact fun w hw h => h0 w (hs w hw) (h.trans hp)

omit [DecidableEq α] in
/-- The end `u` of another quote mark, followed by quoted text. -/
theorem unescaped_mark {esc : List (List α)} {w rest : List α}
    (hesc : ∀ v ∈ esc, ∀ x ∈ w, v.head? ≠ some x) (hne : [] ∉ esc)
    (hov : ∀ u, u ≠ [] → u ≠ w → u <:+ w → ¬ u <+: q ∧ ¬ q <+: u)
    (hw : ¬ q <+: w ++ rest) (ht : Unescaped esc q rest) :
    ∀ u, u <:+ w → Unescaped esc q (u ++ rest) := by
  intro u
  induction u with
  | nil => intro _; exact ht
  | cons x u ih =>
    intro hu
    have hx : x ∈ w := hu.subset (by simp)
    refine .one ?_ ?_ (ih ((List.suffix_cons x u).trans hu))
    · by_cases e : x :: u = w
      · show ¬ q <+: (x :: u) ++ rest
        rw [e]; exact hw
      · intro h
        have := hov (x :: u) (by simp) e hu
        have h : q <+: (x :: u) ++ rest := h
        rcases List.prefix_or_prefix_of_prefix h (List.prefix_append (x :: u) rest) with h | h
        · exact this.2 h
        · exact this.1 h
    · intro v hv h
      cases v with
      | nil => exact hne hv
      | cons y v =>
        rw [List.cons_prefix_cons] at h
        exact hesc _ hv x hx (by simp [h.1])

omit [DecidableEq α] in
theorem unescaped_segment {all esc : List (List α)} (hq : q ∈ all) (hne0 : [] ∉ esc)
    (hesc : ∀ v ∈ esc, ∀ w ∈ all, ∀ x ∈ w, v.head? ≠ some x) (hov : NoOverlap all q)
    {seps : List (List α)} (hs : ∀ w, w ∈ seps ↔ w ∈ all ∨ w ∈ esc) :
    ∀ (ts post : List (List α)), ts.length % 2 = 1 → Alternates seps true (ts ++ post) →
      (∀ w ∈ Spec.seps ts, w ≠ q) → Unescaped esc q ts.flatten
  | [], _, h, _, _ => by simp at h
  | [n], post, _, halt, _ => by
    have hq' : q ∈ seps := (hs q).2 (.inl hq)
    have hs' : ∀ w ∈ esc, w ∈ seps := fun w hw => (hs w).2 (.inr hw)
    simp only [List.flatten_cons, List.flatten_nil]
    cases post with
    | nil =>
      exact unescaped_text hq' hs' (List.nil_prefix (l := [])) .nil n
        (fun a b e' _ => by simpa using halt a b e')
    | cons w rest =>
      exact unescaped_text hq' hs' (List.nil_prefix (l := w ++ rest.flatten)) .nil n halt.1
  | n :: w :: ts, post, hodd, halt, hne => by
    have halt : Alternates seps true (n :: w :: (ts ++ post)) := halt
    have hodd' : ts.length % 2 = 1 := by simp only [List.length_cons] at hodd; omega
    have ih := unescaped_segment hq hne0 hesc hov hs ts post hodd' halt.2.2
      (fun v hv => hne v (by simp [Spec.seps, hv]))
    have hq' : q ∈ seps := (hs q).2 (.inl hq)
    have hlong : Longest seps w (w ++ (ts ++ post).flatten) := by
      have := halt.2.1
      simpa only [SepAt, if_true] using this
    have hwq := hne w (by simp [Spec.seps])
    have hwt : Unescaped esc q (w ++ ts.flatten) := by
      rcases (hs w).1 hlong.1 with h | h
      · refine unescaped_mark (fun v hv => hesc v hv w h) hne0 (hov w h hwq).2 ?_ ih w
          (List.suffix_refl w)
        intro hp
        have hp' : q <+: w ++ (ts ++ post).flatten :=
          hp.trans ⟨post.flatten, by simp⟩
        have hle := hlong.2.2 q hq' hp'
        exact (hov w h hwq).1 (List.prefix_of_prefix_length_le hp (List.prefix_append _ _) hle)
      · exact .skip h ih
    have := unescaped_text hq' (fun w hw => (hs w).2 (.inr hw)) (k := w ++ (ts ++ post).flatten) (by
      rw [List.flatten_append, ← List.append_assoc]; exact List.prefix_append _ _) hwt n halt.1
    simpa using this

end

omit [DecidableEq α] in
theorem alternates_drop {seps : List (List α)} {sp : Bool} : ∀ (pre l : List (List α)),
    pre.length % 2 = 0 → Alternates seps sp (pre ++ l) → Alternates seps sp l
  | [], _, _, h => h
  | [_], _, h, _ => by simp at h
  | _ :: _ :: pre, l, h, halt =>
    alternates_drop pre l (by simp only [List.length_cons] at h; omega) halt.2.2

/-- C89: the text of a quoted segment has no unescaped occurrence of its quote mark `q`, for every `q`
that no other quote mark overlaps, if the first character of the escape string is in no quote mark.
Escapable are the escape string and the marks in `quotes`; those of `multiline_quotes` are not (see the
counterexample). For quote marks that overlap, see `C89_exact`. -/
theorem C89_no_unescaped_quote (hc : CacheOK E.cache) (hsort : ∀ l w, w ∈ E.sort l ↔ w ∈ l)
    (s : List α) (quotes ml : List (List α)) (escape : List α) (state : List α) (r)
    (h : splitQuotedStrings E s quotes escape ml state = .ok r)
    (he : ∀ w ∈ quotes ++ ml, ∀ x ∈ w, escape.head? ≠ some x)
    (a t b : List α) (hx : (a, t, b) ∈ r.1) (q : List α) (hq0 : q ≠ []) (hq : a = q ∨ b = q)
    (hov : NoOverlap (quotes ++ ml) q) :
    Unescaped (Escapes quotes escape) q t := by
  obtain ⟨L, hL, hok, _⟩ := C47_split_quoted_strings hc hsort s quotes ml escape state r h
  obtain ⟨pre, ts, post, hL1, hpre, hts, ht, hcase⟩ := hok _ hx
  obtain ⟨_, hL2⟩ := hL
  simp only [Bool.false_eq_true, if_false] at hL2
  rw [hL1, List.append_assoc] at hL2
  have halt := alternates_drop pre _ hpre hL2
  have hs : ∀ w, w ∈ Separators quotes ml escape ↔ w ∈ quotes ++ ml ∨ w ∈ Escapes quotes escape := by
    intro w
    unfold Separators Escapes
    rw [List.mem_append]
  have hesc : ∀ v ∈ Escapes quotes escape, v ≠ [] ∧ v.head? = escape.head? := by
    intro v hv
    unfold Escapes at hv
    split at hv
    · simp at hv
    · rename_i hne
      cases escape with
      | nil => exact absurd rfl hne
      | cons x u =>
        simp only [List.mem_append, List.mem_map, List.mem_singleton] at hv
        rcases hv with ⟨_, _, rfl⟩ | rfl <;> simp
  dsimp only at ht hcase
  rw [ht]
  rcases hcase with ⟨q', hq', hne, h1, h2, _⟩ | ⟨h1, h2, _⟩
  · have : q' = q := by
      rcases hq with rfl | rfl
      · rcases h1 with ⟨h, _⟩ | ⟨h, _⟩
        · exact h.symm
        · exact absurd h hq0
      · rcases h2 with ⟨h, _⟩ | ⟨h, _⟩
        · exact h.symm
        · exact absurd h hq0
    subst this
    refine unescaped_segment hq' (fun h => (hesc _ h).1 rfl) ?_ hov hs ts post hts halt hne
    intro v hv w hw x hxw
    rw [(hesc v hv).2]
    exact he w hw x hxw
  · rcases hq with rfl | rfl
    · exact absurd h1 hq0
    · exact absurd h2 hq0

omit [DecidableEq α] in
/-- Quote marks of one character do not overlap. -/
theorem noOverlap_single {all : List (List α)} (h : ∀ w ∈ all, w.length = 1) {q : List α}
    (hq : q ∈ all) : NoOverlap all q := by
  intro w hw hne
  obtain ⟨c, rfl⟩ := List.length_eq_one_iff.1 (h w hw)
  obtain ⟨d, rfl⟩ := List.length_eq_one_iff.1 (h q hq)
  refine ⟨?_, ?_⟩
  · intro hp
    rw [List.cons_prefix_cons] at hp
    exact hne (by rw [hp.1])
  · intro u hu hu' hs
    rw [List.suffix_cons_iff] at hs
    rcases hs with rfl | hs
    · exact absurd rfl hu'
    · simp at hs; exact absurd hs hu

/-- Python's quote marks: nothing overlaps the triple ones. -/
example : ∀ q ∈ ["\"\"\"".toList, "'''".toList],
    NoOverlap ["\"".toList, "'".toList, "\"\"\"".toList, "'''".toList] q := by
  have key : ∀ q ∈ ["\"\"\"".toList, "'''".toList],
      ∀ w ∈ ["\"".toList, "'".toList, "\"\"\"".toList, "'''".toList], w ≠ q →
      ¬ q <+: w ∧ ∀ i ∈ List.range 4, w.drop i ≠ [] → w.drop i ≠ w →
        ¬ w.drop i <+: q ∧ ¬ q <+: w.drop i := by decide
  intro q hq w hw hne
  obtain ⟨h1, h2⟩ := key q hq w hw hne
  refine ⟨h1, ?_⟩
  rintro u hu hu' ⟨v, rfl⟩
  have hl : v.length ∈ List.range 4 := by
    simp only [List.mem_cons, List.not_mem_nil, or_false] at hw
    have : (v ++ u).length ≤ 3 := by rcases hw with e | e | e | e <;> rw [e] <;> decide
    simp at this ⊢; omega
  simpa using h2 v.length hl (by simpa using hu) (by simpa using hu')

/-! ### examples -/

/-- str, with ASCII line breaks `\n` and `\r` only (enough for the examples). -/
def strEnv : Env Char :=
  { nl := '\n'
    nlines := fun s => if s.isEmpty then 0 else
      (s.dropLast.filter (fun c => c == '\n' || c == '\r')).length + 1
    laden := 'x'
    sort := fun l => l
    cache := fun _ => none }

example : CacheOK strEnv.cache ∧ ∀ l w, w ∈ strEnv.sort l ↔ w ∈ l :=
  ⟨by intro _ _ h; simp [strEnv] at h, fun _ _ => Iff.rfl⟩

example : splitQuotedStrings strEnv "ab\"c\\\"d'\" 'e".toList ["\"".toList, "'".toList] ['\\'] [] []
    = .ok ([([], "ab".toList, []), ("\"".toList, "c\\\"d'".toList, "\"".toList),
        ([], " ".toList, []), ("'".toList, "e".toList, [])], none) := by decide +kernel

example : splitQuotedStrings strEnv "a b c'".toList ["\"".toList, "'".toList] ['\\'] [] ['\'']
    = .ok ([([], "a b c".toList, "'".toList)], none) := by decide +kernel

example : splitQuotedStrings strEnv "a'b\nc'".toList ["\"".toList, "'".toList] ['\\'] [] []
    = .ok ([([], "a".toList, [])], some .syntaxError) := by decide +kernel

/-- The documented escape does not work for multiline quotes: an escaped `"` ends a string quoted by `"`
if that is a multiline quote. -/
theorem C89_counterexample_multiline_escape :
    splitQuotedStrings strEnv "\"a\\\"b\"".toList ["'".toList] ['\\'] ["\"".toList] []
      = .ok ([("\"".toList, "a\\".toList, "\"".toList), ([], "b".toList, []), ("\"".toList, [], [])], none) := by
  decide +kernel

/-- With overlapping quote marks the text can contain its quote mark: `'''` is not `'`. -/
theorem C89_counterexample_overlapping_quotes :
    splitQuotedStrings strEnv "'a'''b'".toList ["'".toList, "'''".toList] ['\\'] [] []
      = .ok ([("'".toList, "a'''b".toList, "'".toList)], none) := by
  decide +kernel

end Big.SQ
