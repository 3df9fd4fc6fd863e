import Verif.Multisplit.Props2
/-! # C41: multistrip -/
namespace Big.MS
open Big.Rx Spec

variable {α R : Type} [DecidableEq α] {nl : α} {seps : List (List α)}

theorem lang_lit : ∀ {w u : List α} {c : Caps α}, Lang (lit w) u c → u = w
  | [], _, _, h => by
    simp only [lit] at h
    cases h; rfl
  | a :: w, _, _, h => by
    simp only [lit] at h
    cases h with
    | seq h1 h2 =>
      cases h1 with
      | cls hp =>
        have := lang_lit h2
        simp only [decide_eq_true_eq] at hp
        simp [hp, this]

theorem lang_alts : ∀ {ws : List (List α)} (_ : ws ≠ []) {u : List α} {c : Caps α},
    Lang (alts ws) u c → u ∈ ws
  | [], h0, _, _, _ => absurd rfl h0
  | [w], _, _, _, h => by simp [lang_lit (show Lang (lit w) _ _ from h)]
  | w :: v :: ws, _, _, _, h => by
    simp only [alts] at h
    cases h with
    | altl h => simp [lang_lit h]
    | altr h => exact List.mem_cons_of_mem _ (lang_alts (by simp) h)

theorem lang_star_alts {ws : List (List α)} (h0 : ws ≠ []) {r : Rx α} {u : List α} {c : Caps α}
    (h : Lang r u c) : r = .star (alts ws) → Concat ws u := by
  induction h with
  | starS h1 h2 _ ih2 =>
    intro e
    have e' := e
    simp only [Rx.star.injEq] at e'
    subst e'
    exact .cons (lang_alts h0 h1) (ih2 e)
  | star0 => intro _; exact .nil
  | _ => intro e; simp at e

theorem concat_congr {a b : List (List α)} (h : ∀ w, w ∈ a → w ∈ b) {m : List α}
    (hm : Concat a m) : Concat b m := by
  induction hm with
  | nil => exact .nil
  | cons hw _ ih => exact .cons (h _ hw) ih

/-- Whatever the repeated alternation matches is one or more separators. -/
theorem plus_sound (hne : seps ≠ []) (he : [] ∉ seps) {s : List α} {c : Caps α}
    {k : List α → Caps α → Option R} {x : R}
    (h : (sepRe seps false).m s c k = some x) :
    ∃ m rest c', s = m ++ rest ∧ m ≠ [] ∧ Concat seps m ∧ k rest c' = some x := by
  obtain ⟨w, rest, c', h1, h2, h3⟩ := Rx.m_sound _ _ _ _ _ h
  simp only [sepRe, Bool.false_eq_true, if_false, Rx.plus] at h2
  cases h2 with
  | @seq _ _ w1 w2 c1 c2 ha hb =>
    have hw1 := mem_sortSeps.1 (lang_alts (sortSeps_ne hne) ha)
    have hw2 := concat_congr (fun w hw => mem_sortSeps.1 hw) (lang_star_alts (sortSeps_ne hne) hb rfl)
    refine ⟨w1 ++ w2, rest, _, h1, ?_, .cons hw1 hw2, h3⟩
    intro e
    exact he ((List.append_eq_nil_iff.1 e).1 ▸ hw1)

theorem findSome_isSome {f : List α → Option R} {w : List α} : ∀ {l : List (List α)}, w ∈ l →
    (f w).isSome → (l.findSome? f).isSome := by
  intro l hw hf
  rw [List.findSome?_isSome_iff]
  exact ⟨w, hw, hf⟩

/-- The engine backtracks: a run of separators after which the continuation succeeds is found. -/
theorem star_complete (hne : seps ≠ []) (he : [] ∉ seps) {k : List α → Caps α → Option R}
    {rest : List α} (hk : ∀ c, (k rest c).isSome) {m : List α} (hm : Concat seps m) :
    ∀ (n : Nat) (c : Caps α), (m ++ rest).length ≤ n →
      (mstar (alts (sortSeps seps)).m n (m ++ rest) c k).isSome := by
  induction hm with
  | nil =>
    intro n c _
    cases n with
    | zero => exact hk c
    | succ n => simp only [mstar, List.nil_append]; rw [Option.isSome_or, hk, Bool.or_true]
  | @cons w m hw _ ih =>
    intro n c hn
    have hwl : 0 < w.length := List.length_pos_iff.2 (fun e => he (e ▸ hw))
    simp only [List.length_append] at hn
    cases n with
    | zero => omega
    | succ n =>
      simp only [mstar]
      rw [Option.isSome_or, alts_m _ (sortSeps_ne hne)]
      rw [findSome_isSome (mem_sortSeps.2 hw)]
      · rfl
      · rw [List.append_assoc, if_pos ⟨_, rfl⟩]
        simp only [List.drop_left]
        rw [if_pos (by simp only [List.length_append]; omega)]
        exact ih n c (by simp only [List.length_append]; omega)

theorem plus_complete (hne : seps ≠ []) (he : [] ∉ seps) {k : List α → Caps α → Option R}
    {rest : List α} (hk : ∀ c, (k rest c).isSome) {m : List α} (hm : Concat seps m) (hm0 : m ≠ [])
    (c : Caps α) : ((sepRe seps false).m (m ++ rest) c k).isSome := by
  cases hm with
  | nil => exact absurd rfl hm0
  | @cons w m hw hc =>
    simp only [sepRe, Bool.false_eq_true, if_false, Rx.plus, Rx.m]
    rw [alts_m _ (sortSeps_ne hne)]
    apply findSome_isSome (mem_sortSeps.2 hw)
    rw [List.append_assoc, if_pos ⟨_, rfl⟩]
    simp only [List.drop_left]
    exact star_complete hne he hk hc _ c (Nat.le_refl _)

theorem search_gen (mt : List α → Option (List α × List α)) : ∀ s : List α,
    (∃ p s' x, search mt s = some (p, x) ∧ s = p ++ s' ∧ mt s' = some x ∧
      ∀ a b, p = a ++ b → b ≠ [] → mt (b ++ s') = none) ∨
    (search mt s = none ∧ ∀ a b, s = a ++ b → mt b = none) := by
  intro s
  induction s with
  | nil =>
    cases h : mt [] with
    | some x =>
      left
      refine ⟨[], [], x, by simp [search, h], rfl, h, ?_⟩
      intro a b e hb
      exact absurd (List.append_eq_nil_iff.1 e.symm).2 hb
    | none =>
      right
      refine ⟨by simp [search, h], ?_⟩
      intro a b e
      rw [(List.append_eq_nil_iff.1 e.symm).2]; exact h
  | cons c s ih =>
    cases h : mt (c :: s) with
    | some x =>
      left
      refine ⟨[], c :: s, x, by simp [search, h], rfl, h, ?_⟩
      intro a b e hb
      exact absurd (List.append_eq_nil_iff.1 e.symm).2 hb
    | none =>
      rcases ih with ⟨p, s', x, h1, h2, h3, h4⟩ | ⟨h1, h2⟩
      · left
        refine ⟨c :: p, s', x, by simp [search, h, h1], by simp [h2], h3, ?_⟩
        intro a b e hb
        cases a with
        | nil =>
          have : b = c :: p := by simpa using e.symm
          subst this
          rw [List.cons_append, ← h2]; exact h
        | cons y a => exact h4 a b (List.cons.inj e).2 hb
      · right
        refine ⟨by simp [search, h, h1], ?_⟩
        intro a b e
        cases a with
        | nil =>
          have : b = c :: s := by simpa using e.symm
          subst this; exact h
        | cons y a => exact h2 a b (List.cons.inj e).2

/-- Whether `(?:...)+$` matches at the start of `s`. -/
theorem tail_match (hne : seps ≠ []) (he : [] ∉ seps) (s : List α) :
    (match0 (.seq (sepRe seps false) (.look (atEnd nl))) s).isSome ↔
      ∃ m rest, s = m ++ rest ∧ m ≠ [] ∧ Concat seps m ∧ (rest = [] ∨ rest = [nl]) := by
  unfold match0 Rx.matchStart
  rw [Option.isSome_map]
  constructor
  · intro h
    obtain ⟨x, hx⟩ := Option.isSome_iff_exists.1 h
    rw [Rx.m] at hx
    obtain ⟨m, rest, c', h1, h2, h3, h4⟩ := plus_sound hne he hx
    simp only [Rx.m] at h4
    split at h4
    · rename_i ha
      exact ⟨m, rest, h1, h2, h3, by simpa [atEnd] using ha⟩
    · simp at h4
  · rintro ⟨m, rest, rfl, h2, h3, h4⟩
    rw [Rx.m]
    refine plus_complete hne he ?_ h3 h2 []
    intro c
    simp only [Rx.m]
    rw [if_pos (by simpa [atEnd] using h4)]
    rfl

/-- The right strip: what is removed, and that nothing more could be. -/
theorem right_strip (hne : seps ≠ []) (he : [] ∉ seps) (s : List α) :
    ∃ t r, s = t ++ r ∧
      preOr s (search (match0 (.seq (sepRe seps false) (.look (atEnd nl)))) s) = t ∧
      (r = [] ∨ (∃ m, m ≠ [] ∧ Concat seps m ∧ (r = m ∨ r = m ++ [nl]))) ∧
      (∀ a b m rest, t = a ++ b → b ≠ [] ∨ r = [] → b ++ r = m ++ rest → m ≠ [] → Concat seps m →
        ¬ (rest = [] ∨ rest = [nl])) := by
  rcases search_gen (match0 (.seq (sepRe seps false) (.look (atEnd nl)))) s with
    ⟨p, s', x, h1, h2, h3, h4⟩ | ⟨h1, h2⟩
  · refine ⟨p, s', h2, by rw [h1]; rfl, ?_, ?_⟩
    · right
      have := (tail_match (nl := nl) hne he s').1 (by rw [h3]; rfl)
      obtain ⟨m, rest, e, a, b, c⟩ := this
      refine ⟨m, a, b, ?_⟩
      rcases c with rfl | rfl
      · left; simpa using e
      · right; exact e
    · intro a b m rest e hb hbm hm hcm hrest
      have hs' : (match0 (.seq (sepRe seps false) (.look (atEnd nl))) (b ++ s')).isSome :=
        (tail_match (nl := nl) hne he _).2 ⟨m, rest, hbm, hm, hcm, hrest⟩
      rcases hb with hb | hr
      · rw [h4 a b e hb] at hs'; simp at hs'
      · have := (tail_match (nl := nl) hne he s').1 (by rw [h3]; rfl)
        obtain ⟨m', rest', e', a', _⟩ := this
        rw [hr] at e'
        exact a' (List.append_eq_nil_iff.1 e'.symm).1
  · refine ⟨s, [], by simp, by rw [h1]; rfl, .inl rfl, ?_⟩
    intro a b m rest e _ hbm hm hcm hrest
    have hs' : (match0 (.seq (sepRe seps false) (.look (atEnd nl))) b).isSome :=
      (tail_match (nl := nl) hne he _).2 ⟨m, rest, by simpa using hbm, hm, hcm, hrest⟩
    rw [h2 a b e] at hs'; simp at hs'

/-- The left strip. -/
theorem left_strip (hne : seps ≠ []) (he : [] ∉ seps) (s : List α) :
    ∃ l, s = l ++ (restOr s (match0 (sepRe seps false) s)) ∧
      Run seps l (restOr s (match0 (sepRe seps false) s)) := by
  rcases match0_sepRe hne he false s with ⟨m, rest, h1, h2, h3⟩ | ⟨h1, h2⟩
  · rw [h3]
    simp only [SepAt, Bool.false_eq_true, if_false] at h2
    exact ⟨m, h1, h2.2⟩
  · rw [h2]
    exact ⟨[], rfl, .done h1⟩

/-- C41, unconditionally: multistrip returns the middle part `t` of `l ++ t ++ r`. `l` is the maximal
run of separators at the start (nothing if left is false). `r` (nothing if right is false) is a
concatenation of separators, perhaps followed by a newline that ends the string. `t` ends with no
separator unless nothing was asked of the right side. -/
theorem C41_multistrip_general (hne : seps ≠ []) (he : [] ∉ seps) (s : List α) (left right : Bool) :
    ∃ t l r, multistrip nl s seps left right = .ok t ∧ s = l ++ (t ++ r) ∧
      (if left then Run seps l (t ++ r) ∧ NoSep seps t else l = []) ∧
      (if right then (∀ w ∈ seps, ¬ w <:+ t) ∧ (Concat seps r ∨ ∃ m, m ≠ [] ∧ Concat seps m ∧ r = m ++ [nl])
        else r = []) := by
  unfold multistrip
  rw [if_neg hne, if_neg he]
  by_cases hlr : left = false ∧ right = false
  · obtain ⟨rfl, rfl⟩ := hlr
    exact ⟨s, [], [], by simp, by simp, by simp, by simp⟩
  · rw [if_neg (by simpa using hlr)]
    have hleft : ∃ l s1, s = l ++ s1 ∧
        (if left then restOr s (match0 (sepRe seps false) s) else s) = s1 ∧ (if left then Run seps l s1 else l = []) := by
      cases left with
      | true => obtain ⟨l, h1, h2⟩ := left_strip hne he s; exact ⟨l, _, h1, rfl, by simpa using h2⟩
      | false => exact ⟨[], s, rfl, rfl, by simp⟩
    obtain ⟨l, s1, hs, he1, hl⟩ := hleft
    unfold stripCore
    simp only [he1]
    cases right with
    | false =>
      simp only [Bool.false_eq_true, if_false]
      refine ⟨s1, l, [], rfl, by simpa using hs, ?_, rfl⟩
      cases left with
      | true =>
        simp only [if_true] at hl ⊢
        exact ⟨by simpa using hl, run_end hl⟩
      | false => simpa using hl
    | true =>
      obtain ⟨t, r, h1, h2, h3, h4⟩ := right_strip (nl := nl) hne he s1
      simp only [if_true, h2]
      refine ⟨t, l, r, rfl, by rw [← h1]; exact hs, ?_, ?_, ?_⟩
      · cases left with
        | true =>
          simp only [if_true] at hl ⊢
          refine ⟨by rw [← h1]; exact hl, ?_⟩
          intro w hw hp
          exact run_end hl w hw (by rw [h1]; exact hp.trans ⟨r, rfl⟩)
        | false => simpa using hl
      · rintro w hw ⟨a, rfl⟩
        have hw0 : w ≠ [] := fun e => he (e ▸ hw)
        rcases h3 with rfl | ⟨m, hm, hcm, hr⟩
        · exact h4 a w w [] rfl (.inl hw0) (by simp) hw0 (by simpa using Concat.cons hw .nil) (.inl rfl)
        · rcases hr with rfl | rfl
          · exact h4 a w (w ++ r) [] rfl (.inl hw0) (by simp) (by simp [hw0]) (.cons hw hcm) (.inl rfl)
          · exact h4 a w (w ++ m) [nl] rfl (.inl hw0) (by simp) (by simp [hw0]) (.cons hw hcm)
              (.inr rfl)
      · rcases h3 with rfl | ⟨m, hm, hcm, hr⟩
        · exact .inl .nil
        · rcases hr with rfl | rfl
          · exact .inl hcm
          · exact .inr ⟨m, hm, hcm, rfl⟩

/-- C41: multistrip returns `s` without what it took from the sides asked for: from the left only separators; and what is
left neither starts nor ends with a separator there. (What is taken from the right is `C107`.) -/
theorem C41_strips (hne : seps ≠ []) (he : [] ∉ seps) (s : List α) (left right : Bool) :
    ∃ t l r, multistrip nl s seps left right = .ok t ∧ s = l ++ t ++ r ∧ Concat seps l ∧
      (left = true → ∀ w ∈ seps, ¬ w <+: t) ∧ (right = true → ∀ w ∈ seps, ¬ w <:+ t) ∧
      (left = false → l = []) ∧ (right = false → r = []) := by
  obtain ⟨t, l, r, h1, h2, h3, h4⟩ := C41_multistrip_general (nl := nl) hne he s left right
  refine ⟨t, l, r, h1, by rw [List.append_assoc]; exact h2, ?_, ?_, ?_, ?_, ?_⟩
  · cases left with
    | true => exact run_concat (by simpa using h3 : _ ∧ _).1
    | false => rw [show l = [] by simpa using h3]; exact .nil
  · rintro rfl
    simp only [if_true] at h3
    exact h3.2
  · rintro rfl
    exact (by simpa using h4 : _ ∧ _).1
  · rintro rfl; simpa using h3
  · rintro rfl; simpa using h4

/-- C107 for strings that do not end with a newline, or for which newline is a separator, or when the
right side is not stripped: only separators are removed, and none is left at a stripped side.
A trailing newline that is not a separator may be removed as well (see the counterexample). -/
theorem C107_multistrip (hne : seps ≠ []) (he : [] ∉ seps) (s : List α) (left right : Bool)
    (hnl : [nl] ∈ seps ∨ s.getLast? ≠ some nl ∨ right = false) :
    ∃ t l r, multistrip nl s seps left right = .ok t ∧ s = l ++ t ++ r ∧
      Concat seps l ∧ Concat seps r ∧
      (left = true → ∀ w ∈ seps, ¬ w <+: t) ∧ (right = true → ∀ w ∈ seps, ¬ w <:+ t) ∧
      (left = false → l = []) ∧ (right = false → r = []) := by
  obtain ⟨t, l, r, h1, h2, h3, h4⟩ := C41_multistrip_general (nl := nl) hne he s left right
  refine ⟨t, l, r, h1, by rw [List.append_assoc]; exact h2, ?_, ?_, ?_, ?_, ?_, ?_⟩
  · cases left with
    | true => exact run_concat (by simpa using h3 : _ ∧ _).1
    | false => rw [show l = [] by simpa using h3]; exact .nil
  · cases right with
    | false => rw [show r = [] by simpa using h4]; exact .nil
    | true =>
      simp only [if_true] at h4
      rcases h4.2 with h | ⟨m, hm, hc, rfl⟩
      · exact h
      · rcases hnl with h | h | h
        · exact concat_append hc (by simpa using Concat.cons h .nil)
        · exfalso; apply h; rw [h2]; simp
        · simp at h
  · rintro rfl
    simp only [if_true] at h3
    exact h3.2
  · rintro rfl
    exact (by simpa using h4 : _ ∧ _).1
  · rintro rfl; simpa using h3
  · rintro rfl; simpa using h4

/-- The full claim fails: a newline ending the string is removed with the separators before it, though
it is not a separator. -/
theorem C107_counterexample_trailing_newline :
    multistrip '\n' "abc \n".toList [[' ']] true true = .ok "abc".toList ∧
    ∀ r, "abc \n".toList = "abc".toList ++ r → ¬ Concat [[' ']] r := by
  refine ⟨by decide +kernel, ?_⟩
  intro r hr hc
  have : r = [' ', '\n'] := by
    have h : "abc".toList ++ [' ', '\n'] = "abc".toList ++ r := by rw [← hr]; decide
    exact (List.append_cancel_left h).symm
  subst this
  have := single_concat (by decide) hc '\n' (by decide)
  revert this; decide

/-- What is stripped stays stripped: multistrip is idempotent, if newline is a separator or does not
occur in the string. (With other newlines it need not be.) -/
theorem C107_multistrip_idempotent (hne : seps ≠ []) (he : [] ∉ seps) (s t : List α)
    (left right : Bool) (hnl : [nl] ∈ seps ∨ nl ∉ s)
    (h : multistrip nl s seps left right = .ok t) : multistrip nl t seps left right = .ok t := by
  obtain ⟨t0, l, r, h1, h2, h3, h4⟩ := C41_multistrip_general (nl := nl) hne he s left right
  rw [h1] at h
  simp only [Except.ok.injEq] at h
  subst h
  obtain ⟨t', l', r', h1', h2', h3', h4'⟩ := C41_multistrip_general (nl := nl) hne he t0 left right
  rw [h1']
  have hl' : l' = [] := by
    cases left with
    | false => simpa using h3'
    | true =>
      simp only [if_true] at h3 h3'
      cases h3'.1 with
      | done _ => rfl
      | @more w m _ hl _ =>
        exfalso
        exact h3.2 w hl.1 ⟨m ++ (t' ++ r'), by rw [h2']; simp⟩
  subst hl'
  have hconc : ∀ m, Concat seps m → m ≠ [] → ∃ w ∈ seps, w <:+ m := by
    intro m hm
    induction hm with
    | nil => intro e; exact absurd rfl e
    | @cons w m hw hc ih =>
      intro _
      by_cases hm : m = []
      · subst hm; exact ⟨w, hw, by simp⟩
      · obtain ⟨v, hv, hs⟩ := ih hm
        exact ⟨v, hv, hs.trans ⟨w, rfl⟩⟩
  have hr' : r' = [] := by
    cases right with
    | false => simpa using h4'
    | true =>
      simp only [if_true] at h4 h4'
      apply Decidable.byContradiction
      intro hr0
      rcases h4'.2 with hc | ⟨m, hm, hc, rfl⟩
      · obtain ⟨w, hw, hs⟩ := hconc r' hc hr0
        exact h4.1 w hw (by rw [h2']; exact hs.trans ⟨t', by simp⟩)
      · rcases hnl with hn | hn
        · refine h4.1 [nl] hn ?_
          rw [h2']; exact ⟨t' ++ m, by simp⟩
        · apply hn
          rw [h2, h2']; simp
  subst hr'
  rw [h2']; simp

/-- Both hypotheses are needed: with a newline inside, a second multistrip can remove more. -/
theorem C107_counterexample_idempotent :
    multistrip '\n' "abc \n;".toList [[' '], [';']] true true = .ok "abc \n".toList ∧
    multistrip '\n' "abc \n".toList [[' '], [';']] true true = .ok "abc".toList := by
  decide +kernel

/-- No separators, or an empty one: ValueError; neither side: the string itself. -/
theorem C41_errors (s : List α) (left right : Bool) :
    (multistrip nl s seps left right = .error .valueError ↔ seps = [] ∨ [] ∈ seps) ∧
    (seps ≠ [] → [] ∉ seps → multistrip nl s seps false false = .ok s) := by
  refine ⟨?_, ?_⟩
  · unfold multistrip
    by_cases h1 : seps = []
    · simp [h1]
    · by_cases h2 : [] ∈ seps
      · simp [h1, h2]
      · rw [if_neg h1, if_neg h2]
        simp only [h1, h2, or_self, iff_false]
        split <;> simp
  · intro h1 h2
    simp [multistrip, h1, h2]

example : multistrip '\n' "  abc  ".toList [[' ']] true true = .ok "abc".toList ∧
    ([['\n']] : List (List Char)) ≠ [] ∧ "  abc  ".toList.getLast? ≠ some '\n' := by decide +kernel

end Big.MS
