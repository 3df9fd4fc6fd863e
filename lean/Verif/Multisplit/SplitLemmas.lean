import Verif.Multisplit.Lemmas
/-! # The splitting loop gives an alternating list -/
namespace Big.MS
open Big.Rx Spec

variable {α : Type}

/-- What is known of the matcher. -/
def Matches (seps : List (List α)) (separate : Bool)
    (mt : List α → Option (List α × List α)) : Prop :=
  ∀ s, (∃ m rest, s = m ++ rest ∧ SepAt seps separate m rest ∧ mt s = some (m, rest)) ∨
    (NoSep seps s ∧ mt s = none)

theorem longest_unique {seps : List (List α)} {w w' s : List α} (h : Longest seps w s)
    (h' : Longest seps w' s) : w = w' := by
  have h1 := h.2.2 _ h'.1 h'.2.1
  have h2 := h'.2.2 _ h.1 h.2.1
  have hl : w.length = w'.length := by omega
  rw [List.prefix_iff_eq_take.1 h.2.1, List.prefix_iff_eq_take.1 h'.2.1, hl]

theorem run_unique {seps : List (List α)} {m rest : List α} (h : Run seps m rest) :
    ∀ {m' rest'}, m ++ rest = m' ++ rest' → Run seps m' rest' → m = m' ∧ rest = rest' := by
  induction h with
  | done hn =>
    intro m' rest' e h'
    cases h' with
    | done _ => exact ⟨rfl, by simpa using e⟩
    | more hl _ =>
      exfalso
      simp only [List.nil_append, List.append_assoc] at e
      exact hn _ hl.1 (e ▸ hl.2.1)
  | @more w m rest hl _ ih =>
    intro m' rest' e h'
    cases h' with
    | done hn =>
      exfalso
      simp only [List.nil_append, List.append_assoc] at e
      exact hn _ hl.1 (e ▸ hl.2.1)
    | @more w' m' _ hl' hr' =>
      simp only [List.append_assoc] at e
      have hw : w = w' := longest_unique hl (e ▸ hl')
      subst hw
      obtain ⟨h1, h2⟩ := ih (List.append_cancel_left e) hr'
      exact ⟨by rw [h1], h2⟩

theorem sepAt_starts {seps : List (List α)} {sp : Bool} {m rest : List α}
    (h : SepAt seps sp m rest) : ∃ w ∈ seps, w <+: m ++ rest := by
  unfold SepAt at h
  split at h
  · exact ⟨m, h.1, h.2.1⟩
  · obtain ⟨hm, hr⟩ := h
    cases hr with
    | done _ => exact absurd rfl hm
    | more hl _ => exact ⟨_, hl.1, by simpa using hl.2.1⟩

theorem sepAt_ne {seps : List (List α)} {sp : Bool} {m rest : List α} (he : [] ∉ seps)
    (h : SepAt seps sp m rest) : m ≠ [] := by
  unfold SepAt at h
  split at h
  · intro e; exact he (e ▸ h.1)
  · exact h.1

theorem sepAt_unique {seps : List (List α)} {sp : Bool} {m rest m' rest' : List α}
    (h : SepAt seps sp m rest) (h' : SepAt seps sp m' rest') (e : m ++ rest = m' ++ rest') :
    m = m' ∧ rest = rest' := by
  unfold SepAt at h h'
  split at h
  · rw [if_pos ‹_›] at h'
    have hw : m = m' := longest_unique h (e ▸ h')
    subst hw
    exact ⟨rfl, List.append_cancel_left e⟩
  · rw [if_neg ‹_›] at h'
    exact run_unique h.2 e h'.2

/-- An alternating list is determined by the string. -/
theorem alternates_unique {seps : List (List α)} {sp : Bool} :
    ∀ (l l' : List (List α)), Alternates seps sp l → Alternates seps sp l' →
      l.flatten = l'.flatten → l = l'
  | [], _, h, _, _ => by simp [Alternates] at h
  | [_], [], _, h, _ => by simp [Alternates] at h
  | _ :: _ :: _, [], _, h, _ => by simp [Alternates] at h
  | [n], [n'], _, _, e => by simpa using e
  | [n], n' :: w' :: r', h, h', e => by
    exfalso
    simp only [Alternates] at h h'
    obtain ⟨w, hw, hp⟩ := sepAt_starts h'.2.1
    exact h n' (w' ++ r'.flatten) (by simpa using e) w hw hp
  | n :: w :: r, [n'], h, h', e => by
    exfalso
    simp only [Alternates] at h h'
    obtain ⟨v, hv, hp⟩ := sepAt_starts h.2.1
    exact h' n (w ++ r.flatten) (by simpa using e.symm) v hv hp
  | n :: w :: r, n' :: w' :: r', h, h', e => by
    simp only [Alternates] at h h'
    simp only [List.flatten_cons] at e
    obtain ⟨v, hv, hp⟩ := sepAt_starts h.2.1
    obtain ⟨v', hv', hp'⟩ := sepAt_starts h'.2.1
    have hn : n = n' := by
      rcases List.append_eq_append_iff.1 e with ⟨a, h1, h2⟩ | ⟨a, h1, h2⟩
      · by_cases ha : a = []
        · subst ha; simpa using h1.symm
        · exfalso
          refine h'.1 n a h1 ha v hv ?_
          rw [← h2]; exact hp
      · by_cases ha : a = []
        · subst ha; simpa using h1
        · exfalso
          refine h.1 n' a h1 ha v' hv' ?_
          rw [← h2]; exact hp'
    subst hn
    have e' := List.append_cancel_left e
    obtain ⟨h1, h2⟩ := sepAt_unique h.2.1 h'.2.1 e'
    subst h1
    rw [alternates_unique r r' h.2.2 h'.2.2 h2]

theorem search_spec {seps : List (List α)} {sp : Bool} {mt : List α → Option (List α × List α)}
    (hm : Matches seps sp mt) : ∀ s : List α,
    (∃ p m rest, search mt s = some (p, m, rest) ∧ s = p ++ (m ++ rest) ∧ SepAt seps sp m rest ∧
      ∀ a b, p = a ++ b → b ≠ [] → NoSep seps (b ++ (m ++ rest))) ∨
    (search mt s = none ∧ ∀ a b, s = a ++ b → NoSep seps b) := by
  intro s
  induction s with
  | nil =>
    rcases hm [] with ⟨m, rest, h1, h2, h3⟩ | ⟨h1, h2⟩
    · left
      refine ⟨[], m, rest, by simp [search, h3], h1, h2, ?_⟩
      intro a b h hb
      exact absurd (List.append_eq_nil_iff.1 h.symm).2 hb
    · right
      refine ⟨by simp [search, h2], ?_⟩
      intro a b h
      rw [(List.append_eq_nil_iff.1 h.symm).2]; exact h1
  | cons c s ih =>
    rcases hm (c :: s) with ⟨m, rest, h1, h2, h3⟩ | ⟨h1, h2⟩
    · left
      refine ⟨[], m, rest, by simp [search, h3], h1, h2, ?_⟩
      intro a b h hb
      exact absurd (List.append_eq_nil_iff.1 h.symm).2 hb
    · rcases ih with ⟨p, m, rest, h3, h4, h5, h6⟩ | ⟨h3, h4⟩
      · left
        refine ⟨c :: p, m, rest, by simp [search, h2, h3], by simp [h4], h5, ?_⟩
        intro a b h hb
        cases a with
        | nil =>
          have : b = c :: p := by simpa using h.symm
          subst this
          rw [List.cons_append, ← h4]; exact h1
        | cons x a => exact h6 a b (by simpa using (List.cons.inj h).2) hb
      · right
        refine ⟨by simp [search, h2, h3], ?_⟩
        intro a b h
        cases a with
        | nil => have : b = c :: s := by simpa using h.symm
                 subst this; exact h1
        | cons x a => exact h4 a b (by simpa using (List.cons.inj h).2)

theorem splitLoop_ne (mt : List α → Option (List α × List α)) (keep : Bool) (f : Nat)
    (lim : Option Nat) (s : List α) : splitLoop mt keep f lim s ≠ [] := by
  cases f with
  | zero => simp [splitLoop]
  | succ f =>
    simp only [splitLoop]
    split
    · simp
    · split <;> simp

/-- The loop without a limit. -/
theorem splitLoop_alternates {seps : List (List α)} {sp : Bool}
    {mt : List α → Option (List α × List α)} (hm : Matches seps sp mt) (he : [] ∉ seps) :
    ∀ (f : Nat) (s : List α), s.length < f →
      Alternates seps sp (splitLoop mt true f none s) ∧
      (splitLoop mt true f none s).flatten = s := by
  intro f
  induction f with
  | zero => intro s h; omega
  | succ f ih =>
    intro s h
    rcases search_spec hm s with ⟨p, m, rest, h1, h2, h3, h4⟩ | ⟨h1, h2⟩
    · have hml := List.length_pos_iff.2 (sepAt_ne he h3)
      have hl := congrArg List.length h2
      simp only [List.length_append] at hl
      obtain ⟨i1, i2⟩ := ih rest (by omega)
      simp only [splitLoop, reduceCtorEq, if_false, h1, Option.map_none, if_true,
        List.cons_append, List.nil_append, Alternates, List.flatten_cons, i2]
      exact ⟨⟨h4, h3, i1⟩, h2.symm⟩
    · simp only [splitLoop, reduceCtorEq, if_false, h1, Alternates]
      exact ⟨h2, by simp⟩

/-- A limit stops the loop early. -/
theorem splitLoop_limit {seps : List (List α)} {sp : Bool}
    {mt : List α → Option (List α × List α)} (hm : Matches seps sp mt) (he : [] ∉ seps) :
    ∀ (f n : Nat) (s : List α), s.length < f →
      splitLoop mt true f (some n) s = limit n (splitLoop mt true f none s) := by
  intro f
  induction f with
  | zero => intro n s h; omega
  | succ f ih =>
    intro n s h
    cases n with
    | zero =>
      rw [limit, (splitLoop_alternates hm he (f + 1) s h).2]
      simp [splitLoop]
    | succ n =>
      rcases search_spec hm s with ⟨p, m, rest, h1, h2, h3, h4⟩ | ⟨h1, h2⟩
      · have hml := List.length_pos_iff.2 (sepAt_ne he h3)
        have hl := congrArg List.length h2
        simp only [List.length_append] at hl
        simp [splitLoop, h1, ih n rest (by omega), limit]
      · simp [splitLoop, h1, limit]

/-- Without the capturing group only the texts remain. -/
theorem splitLoop_texts (mt : List α → Option (List α × List α)) :
    ∀ (f : Nat) (lim : Option Nat) (s : List α),
      splitLoop mt false f lim s = texts (splitLoop mt true f lim s) := by
  intro f
  induction f with
  | zero => intro lim s; rfl
  | succ f ih =>
    intro lim s
    simp only [splitLoop]
    by_cases h : lim = some 0
    · rw [if_pos h, if_pos h]; rfl
    · rw [if_neg h, if_neg h]
      cases search mt s with
      | none => rfl
      | some x => simp [texts, ih]

theorem alternates_odd {seps : List (List α)} {sp : Bool} :
    ∀ (l : List (List α)), Alternates seps sp l → l.length % 2 = 1
  | [], h => by simp [Alternates] at h
  | [_], _ => rfl
  | _ :: _ :: r, h => by
    have := alternates_odd r h.2.2
    simp only [List.length_cons]; omega

theorem limit_flatten : ∀ (n : Nat) (l : List (List α)), (limit n l).flatten = l.flatten
  | 0, l => by simp [limit]
  | _ + 1, [] => rfl
  | _ + 1, [a] => rfl
  | n + 1, a :: w :: r => by simp [limit, limit_flatten n r]

theorem limit_odd : ∀ (n : Nat) (l : List (List α)), l.length % 2 = 1 → (limit n l).length % 2 = 1
  | 0, l, _ => rfl
  | _ + 1, [], h => by simp at h
  | _ + 1, [a], _ => rfl
  | n + 1, a :: w :: r, h => by
    have := limit_odd n r (by simp only [List.length_cons] at h; omega)
    simp only [limit, List.length_cons]; omega

theorem limit_length : ∀ (n : Nat) (l : List (List α)), (limit n l).length ≤ 2 * n + 1
  | 0, l => by simp [limit]
  | _ + 1, [] => by simp [limit]
  | _ + 1, [a] => by simp [limit]
  | n + 1, a :: w :: r => by
    have := limit_length n r
    simp only [limit, List.length_cons]; omega

/-- `limit` keeps the first `2n` pieces and joins the others. -/
theorem limit_eq_take : ∀ (n : Nat) (l : List (List α)), 2 * n < l.length →
    limit n l = l.take (2 * n) ++ [(l.drop (2 * n)).flatten]
  | 0, l, _ => by simp [limit]
  | _ + 1, [], h => by simp at h
  | n + 1, [a], h => by simp at h
  | n + 1, a :: w :: r, h => by
    have := limit_eq_take n r (by simp only [List.length_cons] at h; omega)
    rw [show 2 * (n + 1) = 2 * n + 1 + 1 by omega]
    simp only [limit, List.take_succ_cons, List.drop_succ_cons, this, List.cons_append]

theorem limit_ge : ∀ (n : Nat) (l : List (List α)), l.length % 2 = 1 → l.length ≤ 2 * n + 1 →
    limit n l = l
  | 0, l, h0, h => by
    have hl : l.length = 1 := by omega
    obtain ⟨x, rfl⟩ := List.length_eq_one_iff.1 hl
    simp [limit]
  | _ + 1, [], h, _ => by simp at h
  | n + 1, [a], _, _ => rfl
  | n + 1, a :: w :: r, h1, h => by
    simp only [List.length_cons] at h1 h
    rw [limit, limit_ge n r (by omega) (by omega)]

theorem evens_eq_texts : ∀ l : List (List α), evens l = texts l
  | [] => rfl
  | [_] => rfl
  | a :: w :: l => by simp [evens, texts, evens_eq_texts l]

end Big.MS
