import Verif.Deprecated.Quoted
/-!
# C62, first part: `deprecated.split_quoted_strings`
-/
namespace Big.DQ

variable {α : Type} [DecidableEq α]

/-! ## The specification -/

/-- The inside of a single-quoted string: no closing quote mark, except just after a backslash. -/
inductive Body (bs q : α) : List α → Prop
  | nil : Body bs q []
  | char {c b} : c ≠ bs → c ≠ q → Body bs q b → Body bs q (c :: b)
  | esc {c b} : Body bs q b → Body bs q (bs :: c :: b)

/-- The inside of a triple-quoted string followed by `tail`: no three quote marks in a row, except just
after a backslash, even when `tail` is counted. -/
inductive TBody (bs q : α) (tail : List α) : List α → Prop
  | nil : TBody bs q tail []
  | char {c b} : c ≠ bs → c ≠ q → TBody bs q tail b → TBody bs q tail (c :: b)
  | quote {b} : q ≠ bs → ¬ [q, q] <+: b ++ tail → TBody bs q tail b → TBody bs q tail (q :: b)
  | esc {c b} : TBody bs q tail b → TBody bs q tail (bs :: c :: b)

/-- A whole quoted string: `'...'` or, if triple quotes are on, `'''...'''`. If triple quotes are on, an
empty string `''` must not be followed by a third quote mark. -/
inductive Closed (triples : Bool) (bs q : α) (after : List α) : List α → Prop
  | single {b} : Body bs q b → (triples = true → b = [] → after.head? ≠ some q) →
      Closed triples bs q after (q :: b ++ [q])
  | triple {b} : triples = true → TBody bs q [q, q, q] b →
      Closed triples bs q after ([q, q, q] ++ b ++ [q, q, q])

/-- The text ends before the quoted string does. -/
inductive Unclosed (triples : Bool) (bs q : α) : List α → Prop
  | single {b} : Body bs q b → (triples = true → b ≠ []) → Unclosed triples bs q (q :: b)
  | singleBack {b} : Body bs q b → Unclosed triples bs q (q :: b ++ [bs])
  | triple {b} : triples = true → TBody bs q [] b → Unclosed triples bs q ([q, q, q] ++ b)
  | tripleBack {b} : triples = true → TBody bs q [] b → Unclosed triples bs q ([q, q, q] ++ b ++ [bs])

/-- The segments joined. -/
def join (segs : List (Seg α)) : List α := (segs.map (·.2)).flatten

/-- The segment `(isQuoted, t)` is right, if `post` are the segments after it and `tail` the text after
those. -/
def SegOk (quotes : List α) (triples : Bool) (bs : α) (post : List (Seg α)) (tail : List α) : Seg α → Prop
  | (true, t) => ∃ q ∈ quotes, Closed triples bs q (join post ++ tail) t ∨
      (post = [] ∧ tail = [] ∧ Unclosed triples bs q t)
  | (false, t) => t ≠ [] ∧ (∀ c ∈ t, c ∉ quotes) ∧ ((post = [] ∧ tail = []) ∨ ∃ t' post', post = (true, t') :: post')

/-- All the segments are right. -/
def AllOk (quotes : List α) (triples : Bool) (bs : α) (tail : List α) (segs : List (Seg α)) : Prop :=
  ∀ pre seg post, segs = pre ++ seg :: post → SegOk quotes triples bs post tail seg

/-! ## Lemmas -/

@[simp] theorem join_nil : join ([] : List (Seg α)) = [] := rfl
@[simp] theorem join_cons (x : Seg α) (l) : join (x :: l) = x.2 ++ join l := rfl

theorem allOk_nil {quotes : List α} {triples bs tail} : AllOk quotes triples bs tail [] := by
  intro pre seg post h; simp at h

theorem allOk_cons {quotes : List α} {triples bs tail x l} :
    AllOk quotes triples bs tail (x :: l) ↔ SegOk quotes triples bs l tail x ∧ AllOk quotes triples bs tail l := by
  constructor
  · intro h
    exact ⟨h [] x l rfl, fun pre seg post e => h (x :: pre) seg post (by rw [e]; rfl)⟩
  · rintro ⟨h1, h2⟩ pre seg post e
    cases pre with
    | nil => cases e; exact h1
    | cons y pre => cases e; exact h2 pre seg post rfl

variable {quotes : List α} {triples : Bool} {bs q : α}

section Steps
variable {t bk : Bool} {text rest : List α} {c : α}

theorem st_plain (h : c ∉ quotes) : loop quotes triples bs none t bk text (c :: rest) =
    loop quotes triples bs none t bk (text ++ [c]) rest := by
  rcases rest with _ | ⟨_, _ | ⟨_, _⟩⟩ <;> simp only [loop, h, not_false_eq_true, if_true]

theorem st_open1 (h : c ∈ quotes) : loop quotes false bs none t bk text (c :: rest) =
    (loop quotes false bs (some c) t bk [c] rest).flush false text := by
  rcases rest with _ | ⟨_, _ | ⟨_, _⟩⟩ <;>
    simp only [loop, h, not_true, if_false, Bool.not_false, if_true]

theorem st_open {d : α} (h : c ∈ quotes) (hd : d ≠ c) : loop quotes true bs none t bk text (c :: d :: rest) =
    (loop quotes true bs (some c) t bk [c] (d :: rest)).flush false text := by
  rcases rest with _ | ⟨_, _⟩ <;>
    simp only [loop, h, not_true, if_false, Bool.not_true, Bool.false_eq_true, ne_eq, hd, not_false_eq_true, if_true]

theorem st_empty (h : c ∈ quotes) (hr : rest.head? ≠ some c) :
    loop quotes true bs none t bk text (c :: c :: rest) =
    ((loop quotes true bs none t bk [] rest).emit true [c, c]).flush false text := by
  rcases rest with _ | ⟨d, _⟩
  · simp only [loop, h, not_true, if_false, Bool.not_true, Bool.false_eq_true, ne_eq]
  · have hd : d ≠ c := by simpa using hr
    simp only [loop, h, not_true, if_false, Bool.not_true, Bool.false_eq_true, ne_eq, hd, not_false_eq_true, if_true]

theorem st_triple (h : c ∈ quotes) : loop quotes true bs none t bk text (c :: c :: c :: rest) =
    (loop quotes true bs (some c) true bk [c, c, c] rest).flush false text := by
  simp only [loop, h, not_true, if_false, Bool.not_true, Bool.false_eq_true, ne_eq]

theorem st_back : loop quotes triples bs (some q) t true text (c :: rest) =
    loop quotes triples bs (some q) t false (text ++ [c]) rest := by
  rcases rest with _ | ⟨_, _ | ⟨_, _⟩⟩ <;> simp only [loop, if_true]

theorem st_bs : loop quotes triples bs (some q) t false text (bs :: rest) =
    loop quotes triples bs (some q) t true (text ++ [bs]) rest := by
  rcases rest with _ | ⟨_, _ | ⟨_, _⟩⟩ <;> simp only [loop, if_true, Bool.false_eq_true, if_false]

theorem st_char (h1 : c ≠ bs) (h2 : c ≠ q) : loop quotes triples bs (some q) t false text (c :: rest) =
    loop quotes triples bs (some q) t false (text ++ [c]) rest := by
  rcases rest with _ | ⟨_, _ | ⟨_, _⟩⟩ <;>
    simp only [loop, if_true, Bool.false_eq_true, if_false, h1, ne_eq, h2, not_false_eq_true]

theorem st_close1 (h1 : q ≠ bs) : loop quotes triples bs (some q) false false text (q :: rest) =
    (loop quotes triples bs none false false [] rest).emit true (text ++ [q]) := by
  rcases rest with _ | ⟨_, _ | ⟨_, _⟩⟩ <;>
    simp only [loop, if_true, Bool.false_eq_true, if_false, h1, ne_eq, not_true, Bool.not_false]

theorem st_close3 (h1 : q ≠ bs) : loop quotes triples bs (some q) true false text (q :: q :: q :: rest) =
    (loop quotes triples bs none false false [] rest).emit true (text ++ [q, q, q]) := by
  simp only [loop, if_true, Bool.false_eq_true, if_false, h1, ne_eq, not_true, Bool.not_true, and_self]

theorem st_not3 (h1 : q ≠ bs) (h2 : ¬ [q, q] <+: rest) : loop quotes triples bs (some q) true false text (q :: rest) =
    loop quotes triples bs (some q) true false (text ++ [q]) rest := by
  rcases rest with _ | ⟨c2, _ | ⟨c3, _⟩⟩
  · simp only [loop, Bool.false_eq_true, if_false, h1, ne_eq, not_true, Bool.not_true]
  · simp only [loop, Bool.false_eq_true, if_false, h1, ne_eq, not_true, Bool.not_true]
  · have : ¬ (q = c2 ∧ c2 = c3) := by rintro ⟨rfl, rfl⟩; simp at h2
    simp only [loop, Bool.false_eq_true, if_false, h1, ne_eq, not_true, Bool.not_true, this]

end Steps

theorem run_body {b : List α} (hb : Body bs q b) (hq : q ≠ bs) : ∀ (text rest : List α),
    loop quotes triples bs (some q) false false text (b ++ q :: rest) =
      (loop quotes triples bs none false false [] rest).emit true (text ++ b ++ [q]) := by
  induction hb with
  | nil => intro text rest; simp [st_close1 hq]
  | char h1 h2 _ ih => intro text rest; simp [st_char h1 h2, ih]
  | esc _ ih => intro text rest; simp [st_bs, st_back, ih]

theorem run_ubody {b : List α} (hb : Body bs q b) : ∀ (text : List α), text ≠ [] →
    loop quotes triples bs (some q) false false text b = ⟨[(true, text ++ b)], false⟩ ∧
    loop quotes triples bs (some q) false false text (b ++ [bs]) = ⟨[(true, text ++ b ++ [bs])], false⟩ := by
  induction hb with
  | nil => intro text ht; simp [loop, Result.flush, Result.emit, ht]
  | char h1 h2 _ ih =>
    intro text ht
    simp [st_char h1 h2, ih]
  | @esc c b _ ih =>
    intro text ht
    simp [st_bs, st_back, ih]

theorem run_tbody {b : List α} (hq : q ≠ bs) (rest : List α) (hb : TBody bs q [q, q, q] b) : ∀ (text : List α),
    loop quotes triples bs (some q) true false text (b ++ q :: q :: q :: rest) =
      (loop quotes triples bs none false false [] rest).emit true (text ++ b ++ [q, q, q]) := by
  induction hb with
  | nil => intro text; simp [st_close3 hq]
  | char h1 h2 _ ih => intro text; simp [st_char h1 h2, ih]
  | esc _ ih => intro text; simp [st_bs, st_back, ih]
  | @quote b h1 h2 _ ih =>
    intro text
    have h3 : ¬ [q, q] <+: b ++ q :: q :: q :: rest := by
      intro h
      apply h2
      obtain ⟨t, e⟩ := h
      match b, e with
      | [], e => simp
      | [c2], e => simp at e; simp [e.1]
      | c2 :: c3 :: b', e => simp at e; rw [← e.1, ← e.2.1]; exact ⟨_, rfl⟩
    rw [List.cons_append, st_not3 h1 h3, ih]
    simp

theorem run_utbody {b : List α} (hq : q ≠ bs) (hb : TBody bs q [] b) : ∀ (text : List α), text ≠ [] →
    loop quotes triples bs (some q) true false text b = ⟨[(true, text ++ b)], false⟩ ∧
    loop quotes triples bs (some q) true false text (b ++ [bs]) = ⟨[(true, text ++ b ++ [bs])], false⟩ := by
  induction hb with
  | nil => intro text ht; simp [loop, Result.flush, Result.emit, ht]
  | char h1 h2 _ ih => intro text ht; simp [st_char h1 h2, ih]
  | @esc c b _ ih => intro text ht; simp [st_bs, st_back, ih]
  | @quote b h1 h2 _ ih =>
    intro text ht
    rw [List.append_nil] at h2
    have h3 : ¬ [q, q] <+: b ++ [bs] := by
      rintro ⟨t, e⟩
      match b, e with
      | [], e => simp at e
      | [c2], e => simp at e; exact hq e.2.1
      | c2 :: c3 :: b', e => simp at e; apply h2; rw [← e.1, ← e.2.1]; exact ⟨_, rfl⟩
    rw [List.cons_append, st_not3 h1 h2, st_not3 h1 h3, (ih _ (by simp)).1, (ih _ (by simp)).2]
    simp

/-- Unquoted text. -/
theorem run_plain (u : List α) (hu : ∀ c ∈ u, c ∉ quotes) : ∀ (text rest : List α),
    loop quotes triples bs none false false text (u ++ rest) =
      loop quotes triples bs none false false (text ++ u) rest := by
  induction u with
  | nil => intro text rest; simp
  | cons c u ih =>
    intro text rest
    have h1 := hu c (by simp)
    have ih := ih (fun d hd => hu d (by simp [hd]))
    simp [st_plain h1, ih]

theorem run_closed (hq : q ≠ bs) (hm : q ∈ quotes) {t after : List α} (h : Closed triples bs q after t) (text : List α) :
    loop quotes triples bs none false false text (t ++ after) =
      ((loop quotes triples bs none false false [] after).emit true t).flush false text := by
  cases h with
  | @single b hb ha =>
    have hr := run_body (quotes := quotes) (triples := triples) hb hq [q] after
    have e : q :: b ++ [q] ++ after = q :: (b ++ q :: after) := by simp
    rw [e]
    cases triples with
    | false => rw [st_open1 hm, hr]; simp
    | true =>
      cases hb with
      | nil => exact st_empty hm (ha rfl rfl)
      | @char c b h1 h2 h3 => rw [List.cons_append, st_open hm h2, ← List.cons_append, hr]; simp
      | @esc c b h3 => rw [List.cons_append, st_open hm (Ne.symm hq), ← List.cons_append, hr]; simp
  | @triple b ht hb =>
    have hr := run_tbody (quotes := quotes) (triples := triples) hq after hb [q, q, q]
    subst ht
    have e : [q, q, q] ++ b ++ [q, q, q] ++ after = q :: q :: q :: (b ++ q :: q :: q :: after) := by simp
    rw [e, st_triple hm, hr]

theorem run_unclosed (hq : q ≠ bs) (hm : q ∈ quotes) {t : List α} (h : Unclosed triples bs q t) (text : List α) :
    loop quotes triples bs none false false text t = Result.flush false text ⟨[(true, t)], false⟩ := by
  cases h with
  | @single b hb ha =>
    have hr := (run_ubody (quotes := quotes) (triples := triples) hb [q] (by simp)).1
    cases triples with
    | false => rw [st_open1 hm, hr]; rfl
    | true =>
      cases hb with
      | nil => simp at ha
      | @char c b h1 h2 h3 => rw [st_open hm h2, hr]; rfl
      | @esc c b h3 => rw [st_open hm (Ne.symm hq), hr]; rfl
  | @singleBack b hb =>
    have hr := (run_ubody (quotes := quotes) (triples := triples) hb [q] (by simp)).2
    cases triples with
    | false => rw [List.cons_append, st_open1 hm, hr]; rfl
    | true =>
      cases hb with
      | nil => exact (st_open (rest := []) hm (Ne.symm hq)).trans (by rw [show [bs] = [] ++ [bs] from rfl, hr]; rfl)
      | @char c b h1 h2 h3 => rw [List.cons_append, List.cons_append, st_open hm h2, ← List.cons_append, hr]; rfl
      | @esc c b h3 => rw [List.cons_append, List.cons_append, st_open hm (Ne.symm hq), ← List.cons_append, hr]; rfl
  | @triple b ht hb =>
    have hr := (run_utbody (quotes := quotes) (triples := triples) hq hb [q, q, q] (by simp)).1
    subst ht
    exact (st_triple hm).trans (congrArg (Result.flush false text) hr)
  | @tripleBack b ht hb =>
    have hr := (run_utbody (quotes := quotes) (triples := triples) hq hb [q, q, q] (by simp)).2
    subst ht
    exact (st_triple hm).trans (congrArg (Result.flush false text) hr)

/-! Every text splits. -/

theorem body_split (bs q : α) : ∀ s : List α,
    (∃ b rest, s = b ++ q :: rest ∧ Body bs q b) ∨ Body bs q s ∨ ∃ b, s = b ++ [bs] ∧ Body bs q b
  | [] => .inr (.inl .nil)
  | [c] => by
    by_cases h1 : c = bs
    · exact .inr (.inr ⟨[], by simp [h1], .nil⟩)
    · by_cases h2 : c = q
      · exact .inl ⟨[], [], by simp [h2], .nil⟩
      · exact .inr (.inl (.char h1 h2 .nil))
  | c :: d :: s => by
    by_cases h1 : c = bs
    · subst h1
      rcases body_split c q s with ⟨b, rest, e, hb⟩ | hb | ⟨b, e, hb⟩
      · exact .inl ⟨c :: d :: b, rest, by simp [e], .esc hb⟩
      · exact .inr (.inl (.esc hb))
      · exact .inr (.inr ⟨c :: d :: b, by simp [e], .esc hb⟩)
    · by_cases h2 : c = q
      · exact .inl ⟨[], d :: s, by simp [h2], .nil⟩
      · rcases body_split bs q (d :: s) with ⟨b, rest, e, hb⟩ | hb | ⟨b, e, hb⟩
        · exact .inl ⟨c :: b, rest, by simp [e], .char h1 h2 hb⟩
        · exact .inr (.inl (.char h1 h2 hb))
        · exact .inr (.inr ⟨c :: b, by simp [e], .char h1 h2 hb⟩)

/-- What is after the closing marks does not matter to what is in the body. -/
theorem not_prefix_close {b rest : List α} {q : α} (h : ¬ [q, q] <+: b ++ q :: q :: q :: rest) :
    ¬ [q, q] <+: b ++ [q, q, q] := by
  intro h'
  apply h
  obtain ⟨t, e⟩ := h'
  exact ⟨t ++ rest, by rw [← List.append_assoc, e]; simp⟩

theorem tbody_split (bs q : α) (hq : q ≠ bs) : ∀ s : List α,
    (∃ b rest, s = b ++ q :: q :: q :: rest ∧ TBody bs q [q, q, q] b) ∨ TBody bs q [] s ∨
      ∃ b, s = b ++ [bs] ∧ TBody bs q [] b
  | [] => .inr (.inl .nil)
  | [c] => by
    by_cases h1 : c = bs
    · exact .inr (.inr ⟨[], by simp [h1], .nil⟩)
    · by_cases h2 : c = q
      · subst h2; exact .inr (.inl (.quote h1 (by simp) .nil))
      · exact .inr (.inl (.char h1 h2 .nil))
  | c :: d :: s => by
    by_cases h1 : c = bs
    · subst h1
      rcases tbody_split c q hq s with ⟨b, rest, e, hb⟩ | hb | ⟨b, e, hb⟩
      · exact .inl ⟨c :: d :: b, rest, by simp [e], .esc hb⟩
      · exact .inr (.inl (.esc hb))
      · exact .inr (.inr ⟨c :: d :: b, by simp [e], .esc hb⟩)
    · by_cases h2 : c = q
      · subst h2
        by_cases h3 : [c, c] <+: d :: s
        · obtain ⟨t, e⟩ := h3
          exact .inl ⟨[], t, by rw [← e]; rfl, .nil⟩
        · rcases tbody_split bs c hq (d :: s) with ⟨b, rest, e, hb⟩ | hb | ⟨b, e, hb⟩
          · exact .inl ⟨c :: b, rest, by simp [e], .quote h1 (not_prefix_close (rest := rest) (e ▸ h3)) hb⟩
          · exact .inr (.inl (.quote h1 (by simpa using h3) hb))
          · refine .inr (.inr ⟨c :: b, by simp [e], .quote h1 ?_ hb⟩)
            rintro ⟨t, e'⟩
            apply h3
            rw [e]
            exact ⟨t ++ [bs], by rw [← List.append_assoc, e']; simp⟩
      · rcases tbody_split bs q hq (d :: s) with ⟨b, rest, e, hb⟩ | hb | ⟨b, e, hb⟩
        · exact .inl ⟨c :: b, rest, by simp [e], .char h1 h2 hb⟩
        · exact .inr (.inl (.char h1 h2 hb))
        · exact .inr (.inr ⟨c :: b, by simp [e], .char h1 h2 hb⟩)

theorem quote_split (triples : Bool) (bs q : α) (hq : q ≠ bs) (s : List α) (hr : triples = true → s ≠ []) :
    (∃ t after, q :: s = t ++ after ∧ Closed triples bs q after t) ∨ Unclosed triples bs q (q :: s) := by
  by_cases ht : triples = true ∧ [q, q] <+: s
  · obtain ⟨ht, r, e⟩ := ht
    rcases tbody_split bs q hq r with ⟨b, rest, e', hb⟩ | hb | ⟨b, e', hb⟩
    · exact .inl ⟨_, rest, by simp [← e, e'], .triple ht hb⟩
    · exact .inr (by rw [← e]; exact .triple ht hb)
    · exact .inr (by rw [← e, e']; exact .tripleBack ht hb)
  · rcases body_split bs q s with ⟨b, rest, e, hb⟩ | hb | ⟨b, e, hb⟩
    · refine .inl ⟨_, rest, by simp [e], .single hb ?_⟩
      rintro h1 rfl h2
      cases rest with
      | nil => simp at h2
      | cons x rest =>
        simp at h2
        subst h2
        exact ht ⟨h1, by simp [e]⟩
    · exact .inr (.single hb hr)
    · exact .inr (by rw [e]; exact .singleBack hb)

theorem plain_split (quotes : List α) : ∀ s : List α,
    (∀ c ∈ s, c ∉ quotes) ∨ ∃ u q rest, s = u ++ q :: rest ∧ q ∈ quotes ∧ ∀ c ∈ u, c ∉ quotes
  | [] => .inl (by simp)
  | c :: s => by
    by_cases h : c ∈ quotes
    · exact .inr ⟨[], c, s, rfl, h, by simp⟩
    · rcases plain_split quotes s with h' | ⟨u, q, rest, e, h1, h2⟩
      · exact .inl (by simpa [h] using h')
      · exact .inr ⟨c :: u, q, rest, by simp [e], h1, by simpa [h] using h2⟩

theorem closed_ne {after t : List α} (h : Closed triples bs q after t) : t ≠ [] := by
  cases h <;> simp

theorem unclosed_ne {t : List α} (h : Unclosed triples bs q t) : t ≠ [] := by
  cases h <;> simp

/-- A run of the function, by the specification. -/
theorem run_all (hbs : bs ∉ quotes) : ∀ (n : Nat) (s : List α), s.length ≤ n →
    ∃ segs tail, s = join segs ++ tail ∧ AllOk quotes triples bs tail segs ∧
      ((splitQuoted quotes triples bs s = ⟨segs, false⟩ ∧ tail = []) ∨
       (splitQuoted quotes triples bs s = ⟨segs, true⟩ ∧ triples = true ∧ 
         (∃ u q, tail = u ++ [q] ∧ q ∈ quotes ∧ ∀ c ∈ u, c ∉ quotes))) := by
  intro n
  induction n with
  | zero =>
    intro s hs
    have : s = [] := List.eq_nil_of_length_eq_zero (by omega)
    subst this
    exact ⟨[], [], rfl, allOk_nil, .inl ⟨rfl, rfl⟩⟩
  | succ n ih =>
    intro s hs
    rcases plain_split quotes s with hp | ⟨u, q, rest, e, hm, hu⟩
    · cases s with
      | nil => exact ⟨[], [], rfl, allOk_nil, .inl ⟨rfl, rfl⟩⟩
      | cons c s =>
        refine ⟨[(false, c :: s)], [], by simp, allOk_cons.2 ⟨⟨by simp, hp, .inl ⟨rfl, rfl⟩⟩, allOk_nil⟩, .inl ⟨?_, rfl⟩⟩
        have := run_plain (triples := triples) (bs := bs) _ hp [] []
        rw [List.append_nil] at this
        rw [splitQuoted, this]
        simp [loop, Result.flush, Result.emit]
    · have hq : q ≠ bs := fun h => hbs (h ▸ hm)
      have hrun := run_plain (triples := triples) (bs := bs) u hu [] (q :: rest)
      rw [List.nil_append] at hrun
      by_cases hlast : triples = true ∧ rest = []
      · obtain ⟨ht, rfl⟩ := hlast
        refine ⟨[], u ++ [q], by simp [e], allOk_nil, .inr ⟨?_, ht, u, q, rfl, hm, hu⟩⟩
        rw [e, splitQuoted, hrun, ht]
        simp [loop, hm]
      · rcases quote_split triples bs q hq rest (fun h h' => hlast ⟨h, h'⟩) with ⟨t, after, e', hc⟩ | hun
        · have hrc := run_closed hq hm hc u
          rw [← e'] at hrc
          have hlen : after.length ≤ n := by
            have h1 : 0 < t.length := List.length_pos_iff.2 (closed_ne hc)
            have h2 := congrArg List.length e'
            have h3 := congrArg List.length e
            simp at h2 h3
            omega
          obtain ⟨segs, tail, h1, h2, h3⟩ := ih after hlen
          have hseg : SegOk quotes triples bs segs tail (true, t) := ⟨q, hm, .inl (h1 ▸ hc)⟩
          have hok : AllOk quotes triples bs tail ((true, t) :: segs) := allOk_cons.2 ⟨hseg, h2⟩
          have hs : s = u ++ (t ++ (join segs ++ tail)) := by rw [e, e', h1]
          cases u with
          | nil =>
            refine ⟨(true, t) :: segs, tail, by simpa using hs, hok, ?_⟩
            rw [e, splitQuoted, hrun, hrc, ← splitQuoted]
            rcases h3 with ⟨h3, h4⟩ | ⟨h3, h4⟩
            · exact .inl ⟨by rw [h3]; rfl, h4⟩
            · exact .inr ⟨by rw [h3]; rfl, h4⟩
          | cons x u =>
            refine ⟨(false, x :: u) :: (true, t) :: segs, tail, by simpa using hs,
              allOk_cons.2 ⟨⟨by simp, hu, .inr ⟨t, segs, rfl⟩⟩, hok⟩, ?_⟩
            rw [e, splitQuoted, hrun, hrc, ← splitQuoted]
            rcases h3 with ⟨h3, h4⟩ | ⟨h3, h4⟩
            · exact .inl ⟨by rw [h3]; rfl, h4⟩
            · exact .inr ⟨by rw [h3]; rfl, h4⟩
        · have hru := run_unclosed hq hm hun u
          have hseg : SegOk quotes triples bs [] [] (true, q :: rest) := ⟨q, hm, .inr ⟨rfl, rfl, hun⟩⟩
          have hok : AllOk quotes triples bs [] [(true, q :: rest)] := allOk_cons.2 ⟨hseg, allOk_nil⟩
          cases u with
          | nil =>
            refine ⟨[(true, q :: rest)], [], by simp [e], hok, .inl ⟨?_, rfl⟩⟩
            rw [e, splitQuoted, hrun, hru]
            simp [Result.flush]
          | cons x u =>
            refine ⟨[(false, x :: u), (true, q :: rest)], [], by simp [e],
              allOk_cons.2 ⟨⟨by simp, hu, .inr ⟨_, [], rfl⟩⟩, hok⟩, .inl ⟨?_, rfl⟩⟩
            rw [e, splitQuoted, hrun, hru]
            simp [Result.flush, Result.emit]

/-- The converse: right segments are found. -/
theorem run_segs (hbs : bs ∉ quotes) : ∀ (segs : List (Seg α)) (text : List α), AllOk quotes triples bs [] segs →
    (text ≠ [] → segs = [] ∨ ∃ t post, segs = (true, t) :: post) →
    loop quotes triples bs none false false text (join segs) = Result.flush false text ⟨segs, false⟩
  | [], text, _, _ => by simp [loop]
  | (true, t) :: post, text, h, _ => by
    obtain ⟨h1, h2⟩ := allOk_cons.1 h
    obtain ⟨q, hm, h1⟩ := h1
    have hq : q ≠ bs := fun h => hbs (h ▸ hm)
    rcases h1 with h1 | ⟨rfl, -, h1⟩
    · rw [List.append_nil] at h1
      rw [join_cons, run_closed hq hm h1, run_segs hbs post [] h2 (by simp)]
      simp [Result.flush, Result.emit]
    · simpa using run_unclosed hq hm h1 text
  | (false, t) :: post, text, h, hx => by
    obtain ⟨h1, h2⟩ := allOk_cons.1 h
    obtain ⟨ht, hp, hn⟩ := h1
    have htx : text = [] := Classical.byContradiction fun h => by
      rcases hx h with h | ⟨_, _, h⟩ <;> simp at h
    subst htx
    rw [join_cons, run_plain _ hp, run_segs hbs post _ h2]
    · cases t with
      | nil => exact absurd rfl ht
      | cons x t => simp [Result.flush, Result.emit]
    · intro _
      rcases hn with ⟨h, -⟩ | h
      · exact .inl h
      · exact .inr h

/-! ## Without any hypothesis -/

/-- The segments and `text` give `all`, unless the run raised. -/
def Joins (r : Result α) (all : List α) : Prop := r.raised = false → join r.segs = all

theorem Joins.emit {r : Result α} {all : List α} (h : Joins r all) (b : Bool) (t : List α) :
    Joins (r.emit b t) (t ++ all) := by
  intro h'
  simp [Result.emit] at h' ⊢
  exact h h'

theorem Joins.flush {r : Result α} {all : List α} (h : Joins r all) (b : Bool) (t : List α) :
    Joins (r.flush b t) (t ++ all) := by
  unfold Result.flush
  cases t with
  | nil => simpa using h
  | cons x t => simpa using h.emit b (x :: t)

/-- Closes the side goals of `loop_join`. -/
local macro "fin_join" : tactic => `(tactic|
  first | omega | (simp only [List.length_cons, List.length_nil]; omega) | (simp; done) |
    grind)

theorem loop_join (quotes : List α) (triples : Bool) (bs : α) : ∀ (n : Nat) (quote : Option α) (triple back : Bool)
    (text s : List α), s.length ≤ n → Joins (loop quotes triples bs quote triple back text s) (text ++ s) := by
  intro n
  induction n with
  | zero =>
    intro quote triple back text s hs
    have : s = [] := List.eq_nil_of_length_eq_zero (by omega)
    subst this
    rw [loop]
    exact Joins.flush (fun _ => rfl) _ _
  | succ n ih =>
    intro quote triple back text s hs
    have ih' : ∀ (quote : Option α) (triple back : Bool) (text s all : List α), s.length ≤ n → text ++ s = all →
        Joins (loop quotes triples bs quote triple back text s) all := by
      intro q t b x s all h1 h2; rw [← h2]; exact ih q t b x s h1
    have jend : ∀ (b : Bool) (text all : List α), text = all → Joins (Result.flush b text ⟨[], false⟩) all := by
      intro b text all h; have := Joins.flush (r := ⟨[], false⟩) (all := []) (fun _ => rfl) b text
      simpa [h] using this
    have jf : ∀ (b : Bool) (text all' all : List α) (r : Result α), text ++ all' = all → Joins r all' →
        Joins (r.flush b text) all := by
      intro b text all' all r h1 h2; rw [← h1]; exact h2.flush b text
    have je : ∀ (b : Bool) (text all' all : List α) (r : Result α), text ++ all' = all → Joins r all' →
        Joins (r.emit b text) all := by
      intro b text all' all r h1 h2; rw [← h1]; exact h2.emit b text
    rcases s with _ | ⟨c, _ | ⟨d, _ | ⟨e, r⟩⟩⟩ <;> cases quote <;> rw [loop] <;>
      simp only [List.length_cons, List.length_nil] at hs <;> (repeat' split) <;> 
      first
        | (refine jend _ _ _ ?_ <;> fin_join; done)
        | (intro h; simp at h; done)
        | (refine ih' _ _ _ _ _ _ ?_ ?_ <;> fin_join; done)
        | (refine jf _ _ _ _ _ ?_ (jend _ _ _ rfl) <;> fin_join; done)
        | (refine jf _ _ _ _ _ ?_ (ih' _ _ _ _ _ _ ?_ rfl) <;> fin_join; done)
        | (refine je _ _ _ _ _ ?_ (jend _ _ _ rfl) <;> fin_join; done)
        | (refine je _ _ _ _ _ ?_ (ih' _ _ _ _ _ _ ?_ rfl) <;> fin_join; done)
        | (refine jf _ _ _ _ _ ?_ (je _ _ _ _ _ rfl (jend _ _ _ rfl)) <;> fin_join; done)
        | (refine jf _ _ _ _ _ ?_ (je _ _ _ _ _ rfl (ih' _ _ _ _ _ _ ?_ rfl)) <;> fin_join; done)

theorem run_segs_raise (hbs : bs ∉ quotes) {u : List α} {q : α} (hm : q ∈ quotes) (hu : ∀ c ∈ u, c ∉ quotes) :
    ∀ (segs : List (Seg α)) (text : List α), AllOk quotes true bs (u ++ [q]) segs →
    (text ≠ [] → ∃ t post, segs = (true, t) :: post) →
    loop quotes true bs none false false text (join segs ++ (u ++ [q])) = Result.flush false text ⟨segs, true⟩
  | [], text, _, hx => by
    have htx : text = [] := Classical.byContradiction fun h => by
      obtain ⟨_, _, h⟩ := hx h; simp at h
    subst htx
    rw [join_nil, List.nil_append, run_plain _ hu]
    simp [loop, hm, Result.flush]
  | (true, t) :: post, text, h, _ => by
    obtain ⟨h1, h2⟩ := allOk_cons.1 h
    obtain ⟨q', hm', h1⟩ := h1
    have hq : q' ≠ bs := fun h => hbs (h ▸ hm')
    rcases h1 with h1 | ⟨-, h1, -⟩
    · rw [join_cons, List.append_assoc, run_closed hq hm' h1, run_segs_raise hbs hm hu post [] h2 (by simp)]
      simp [Result.flush, Result.emit]
    · simp at h1
  | (false, t) :: post, text, h, hx => by
    obtain ⟨h1, h2⟩ := allOk_cons.1 h
    obtain ⟨ht, hp, hn⟩ := h1
    have htx : text = [] := Classical.byContradiction fun h => by
      obtain ⟨_, _, h⟩ := hx h; simp at h
    subst htx
    rw [join_cons, List.append_assoc, run_plain _ hp, run_segs_raise hbs hm hu post _ h2]
    · cases t with
      | nil => exact absurd rfl ht
      | cons x t => simp [Result.flush, Result.emit]
    · intro _
      rcases hn with ⟨-, h⟩ | h
      · simp at h
      · exact h

/-! ## The theorems -/

/-- C62: joining the segments recreates `s`, unless the function raises. (Any quotes, any backslash.) -/
theorem C62_quoted_rejoin (quotes : List α) (triples : Bool) (bs : α) (s : List α)
    (h : (splitQuoted quotes triples bs s).raised = false) :
    ((splitQuoted quotes triples bs s).segs.map (·.2)).flatten = s := by
  simpa [join, splitQuoted] using loop_join quotes triples bs _ none false false [] s (Nat.le_refl _) h

/-- C62: exactly the right segments are yielded. With `AllOk` the segments are: non-empty unquoted ones
without quote marks, never two in a row, and whole quoted strings, the last of which may be unclosed; there
is no other way to split `s` so. -/
theorem C62_quoted_exact (quotes : List α) (triples : Bool) (bs : α) (hbs : bs ∉ quotes) (s : List α)
    (segs : List (Seg α)) :
    splitQuoted quotes triples bs s = ⟨segs, false⟩ ↔
      (segs.map (·.2)).flatten = s ∧ AllOk quotes triples bs [] segs := by
  constructor
  · intro h
    obtain ⟨segs', tail, h1, h2, ⟨h3, rfl⟩ | ⟨h3, -⟩⟩ := run_all (triples := triples) hbs s.length s (Nat.le_refl _)
    · rw [h] at h3
      cases h3
      exact ⟨by simpa [join] using h1.symm, h2⟩
    · rw [h] at h3; cases h3
  · rintro ⟨h1, h2⟩
    have := run_segs hbs segs [] h2 (by simp)
    unfold join at this
    rw [h1] at this
    exact this

/-- C62: the function raises (RuntimeError, from an unguarded `next()`) exactly if triple quotes are on and
the last character of `s` opens a quoted string; the text before that quote mark and after the last yielded
segment is then lost. -/
theorem C62_quoted_raises (quotes : List α) (triples : Bool) (bs : α) (hbs : bs ∉ quotes) (s : List α)
    (segs : List (Seg α)) :
    splitQuoted quotes triples bs s = ⟨segs, true⟩ ↔
      triples = true ∧ ∃ u q, s = (segs.map (·.2)).flatten ++ (u ++ [q]) ∧ q ∈ quotes ∧ (∀ c ∈ u, c ∉ quotes) ∧
        AllOk quotes triples bs (u ++ [q]) segs := by
  constructor
  · intro h
    obtain ⟨segs', tail, h1, h2, ⟨h3, rfl⟩ | ⟨h3, h4, u, q, rfl, h5, h6⟩⟩ :=
      run_all (triples := triples) hbs s.length s (Nat.le_refl _)
    · rw [h] at h3; cases h3
    · rw [h] at h3
      cases h3
      exact ⟨h4, u, q, h1, h5, h6, h2⟩
  · rintro ⟨rfl, u, q, h1, h2, h3, h4⟩
    have := run_segs_raise hbs h2 h3 segs [] h4 (by simp)
    unfold join at this
    rw [← h1] at this
    exact this

/-- C62: without triple quotes the function never raises. -/
theorem C62_quoted_total (quotes : List α) (bs : α) (hbs : bs ∉ quotes) (s : List α) :
    (splitQuoted quotes false bs s).raised = false := by
  obtain ⟨segs', tail, h1, h2, ⟨h3, -⟩ | ⟨h3, h4, -⟩⟩ :=
    run_all (quotes := quotes) (triples := false) hbs s.length s (Nat.le_refl _)
  · rw [h3]
  · cases h4

/-! ## Examples -/

private def qs : List Char := ['"', '\'']

/-- A run with an escape, an empty string, and an unclosed triple-quoted string. -/
example : splitQuoted qs true '\\' "a 'b\\'c' \"\" \"\"\"d\" e".toList =
    ⟨[(false, "a ".toList), (true, "'b\\'c'".toList), (false, " ".toList), (true, "\"\"".toList),
      (false, " ".toList), (true, "\"\"\"d\" e".toList)], false⟩ := by decide +kernel

example : '\\' ∉ qs := by decide

/-- The fault: `list(split_quoted_strings('a "'))` raises RuntimeError, and 'a ' is not yielded. With
`triple_quotes=False` it is right. -/
theorem C62_quoted_fault : splitQuoted qs true '\\' "a \"".toList = ⟨[], true⟩ ∧
    splitQuoted qs false '\\' "a \"".toList = ⟨[(false, "a ".toList), (true, ['"'])], false⟩ := by decide +kernel

end Big.DQ
