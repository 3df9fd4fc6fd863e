import Verif.RePart.Props56
/-! # C93, exactly: when re_partition and re_rpartition split at the matches -/
namespace Big.RePart

variable {α : Type} [DecidableEq α]

/-- Specification: each match is not empty, and it is the first place where its text is found after the end of the
match before (`pos` for the first one). -/
def FirstOcc (s : List α) : Nat → List Span → Prop
  | _, [] => True
  | pos, y :: ys => y.1 < y.2 ∧ (∀ q, pos ≤ q → q < y.1 → group s (q, q + (y.2 - y.1)) ≠ group s y) ∧ FirstOcc s y.2 ys

theorem group_eq_iff (s : List α) (m : Span) (h1 : m.1 ≤ m.2) (h2 : m.2 ≤ s.length) (q : Nat) :
    group s (q, q + (m.2 - m.1)) = group s m ↔ group s m <+: s.drop q := by
  have hlen := group_length s m h1 h2
  have hg : group s (q, q + (m.2 - m.1)) = (s.drop q).take (m.2 - m.1) := by
    show (s.take (q + (m.2 - m.1))).drop q = _
    rw [List.drop_take, show q + (m.2 - m.1) - q = m.2 - m.1 by omega]
  rw [hg]
  constructor
  · intro h; rw [← h]; exact List.take_prefix _ _
  · intro h
    rw [List.prefix_iff_eq_take] at h
    rw [h, hlen]

theorem partLoop_iff (s : List α) : ∀ (n : Nat) (ms : List Span) (d : Nat), d ≤ s.length → From s.length d ms →
    (partLoop s n ms (s.drop d) = .ok (weave (between s d (ms.take n) ++ List.replicate (n - ms.length) []) (padTo n ms)) ↔
      FirstOcc s d (ms.take n)) := by
  intro n
  induction n with
  | zero =>
    intro ms d _ _
    rw [partLoop]; simp [padTo, between, weave, FirstOcc]
  | succ n ih =>
    intro ms d hd hms
    cases ms with
    | nil => rw [partLoop, weave_nones]; simp [padTo, between, FirstOcc]
    | cons m ms =>
      have hm := hms.1 m (by simp)
      have hlen := group_length s m hm.2.1 hm.2.2
      have hpad : padTo (n + 1) (m :: ms) = some m :: padTo n ms := by simp [padTo]
      rw [hpad, List.take_succ_cons, between, FirstOcc]
      simp only [List.cons_append, List.length_cons, Nat.add_sub_add_right, weave]
      by_cases hlt : m.1 < m.2
      · have hne0 : group s m ≠ [] := by intro h; rw [h] at hlen; simp at hlen; omega
        have hp := group_prefix s m d hm.1
        obtain ⟨i, hi, hile⟩ := findSub_of_prefix hp (by simp; omega)
        obtain ⟨g1, g2, g3⟩ := findSub_some hi
        rw [partLoop, partition, if_neg hne0, hi]
        dsimp only
        have hex : (∀ q, d ≤ q → q < m.1 → group s (q, q + (m.2 - m.1)) ≠ group s m) ↔ i = m.1 - d := by
          constructor
          · intro h
            apply Classical.byContradiction
            intro hne
            refine h (d + i) (by omega) (by omega) ((group_eq_iff s m hm.2.1 hm.2.2 _).2 ?_)
            rwa [List.drop_drop] at g1
          · intro h q h1 h2 h3
            refine g3 (q - d) (by omega) ?_
            rw [List.drop_drop, show d + (q - d) = q by omega]
            exact (group_eq_iff s m hm.2.1 hm.2.2 _).1 h3
        rw [hex]
        by_cases hi' : i = m.1 - d
        · subst hi'
          have := ih ms m.2 hm.2.2 (hms.tail (Nat.le_refl _))
          rw [← this, hlen, List.drop_drop, show d + (m.1 - d + (m.2 - m.1)) = m.2 by omega, List.drop_take]
          cases partLoop s n ms (s.drop m.2) with
          | error e => simp
          | ok r => simp [hlt]
        · have hno : (s.drop d).take i ≠ (s.take m.1).drop d := by
            intro h
            have := congrArg List.length h
            simp at this
            omega
          cases partLoop s n ms ((s.drop d).drop (i + (group s m).length)) with
          | error e => simp [hi']
          | ok r => simp [hi', hno]
      · have he : group s m = [] := by rw [← List.length_eq_zero_iff]; omega
        rw [partLoop, partition, if_pos he]
        simp [hlt]

/-- C93: re_partition splits at exactly the matches if, and only if, each of the matches used is not empty and is the
first place where its text is found in the rest of the string: then the texts are those before the first match,
between one and the next, and after the last one. -/
theorem C93_exact_iff {M : Matcher} (hM : M.Lawful) (s : List α) (hs : M.len = s.length) (count : Nat) :
    rePartition M s count = .ok (weave
      (between s 0 ((finditer M).take count) ++ List.replicate (count - (finditer M).length) [])
      (padTo count (finditer M))) ↔ FirstOcc s 0 ((finditer M).take count) := by
  have := partLoop_iff s count (finditer M) 0 (by omega) (hs ▸ finditer_from hM)
  rw [List.drop_zero] at this
  rw [rePartition_eq, this]

/-! ### From the right -/

omit [DecidableEq α] in
theorem between_snoc (d : Nat) (m : Span) : ∀ (l : List Span) (s : List α) (p : Nat), (∀ t ∈ l, t.2 ≤ m.1) → (p ≤ m.1) → m.1 ≤ d → m.1 ≤ m.2 → m.2 ≤ d →
      (∀ t ∈ l, t.1 ≤ t.2) →
      between (s.take d) p (l ++ [m]) = between (s.take m.1) p l ++ [(s.take d).drop m.2] := by
  intro l
  induction l with
  | nil =>
    intro s p _ _ h1 h2 h3 _
    simp [between, List.take_take, Nat.min_eq_left h1]
  | cons t l ih =>
    intro s p ht hp h1 h2 h3 hle
    have h5 := ht t (by simp)
    have h6 := hle t (by simp)
    rw [List.cons_append, between, between, ih s t.2 (fun u hu => ht u (by simp [hu])) h5 h1 h2 h3 (fun u hu => hle u (by simp [hu]))]
    rw [List.take_take, List.take_take, Nat.min_eq_left (by omega), Nat.min_eq_left (by omega)]
    rfl

theorem rpartLoop_iff (s : List α) : ∀ (n : Nat) (ms : List Span) (d : Nat), d ≤ s.length → UpTo d ms →
    (rpartLoop s n ms (s.take d) = .ok (weave ((between (s.take d) 0 (ms.take n).reverse).reverse ++ List.replicate (n - ms.length) [])
      (padTo n ms)) ↔ LastOcc s d (ms.take n)) := by
  intro n
  induction n with
  | zero =>
    intro ms d _ _
    rw [rpartLoop]; simp [padTo, between, weave, LastOcc]
  | succ n ih =>
    intro ms d hd hms
    cases ms with
    | nil => rw [rpartLoop, weave_nones]; simp [padTo, between, LastOcc]
    | cons m ms =>
      have hm := hms.1 m (by simp)
      have hlen := group_length s m hm.1 (by omega)
      have hpad : padTo (n + 1) (m :: ms) = some m :: padTo n ms := by simp [padTo]
      have hmem : ∀ t ∈ (ms.take n).reverse, t.1 ≤ t.2 ∧ t.2 ≤ m.1 := by
        intro t ht
        exact (hms.tail (Nat.le_refl _)).1 t (List.mem_of_mem_take (List.mem_reverse.1 ht))
      rw [hpad, List.take_succ_cons, List.reverse_cons, between_snoc d m _ s 0 (fun t ht => (hmem t ht).2) (by omega) (by omega) hm.1 hm.2
        (fun t ht => (hmem t ht).1), List.reverse_append, List.reverse_singleton, LastOcc]
      simp only [List.length_cons, Nat.add_sub_add_right, List.cons_append, List.nil_append, weave]
      by_cases hlt : m.1 < m.2
      · have hne0 : group s m ≠ [] := by intro h; rw [h] at hlen; simp at hlen; omega
        have hp : group s m <+: (s.take d).drop m.1 := by
          have := group_prefix (s.take d) m 0 (by omega)
          rw [group_take s m d hm.2] at this
          simpa using this
        obtain ⟨i, hi, hile⟩ := rfindSub_of_prefix hp (by simp; omega)
        obtain ⟨g1, g2, g3⟩ := rfindSub_some hi
        have hil : i ≤ d := by simp at g2; omega
        have hid : i + (m.2 - m.1) ≤ d := by
          have := g1.length_le
          simp [hlen] at this
          omega
        have hgrp : ∀ q, q + (m.2 - m.1) ≤ d → (group s (q, q + (m.2 - m.1)) = group s m ↔ group s m <+: (s.take d).drop q) := by
          intro q hq
          have := group_eq_iff (s.take d) m hm.1 (by simp; omega) q
          rwa [group_take s m d hm.2, group_take s _ d hq] at this
        rw [rpartLoop, rpartition, if_neg hne0, hi]
        dsimp only
        rw [List.take_take, Nat.min_eq_left hil]
        have hex : (∀ q, m.1 < q → q + (m.2 - m.1) ≤ d → group s (q, q + (m.2 - m.1)) ≠ group s m) ↔ i = m.1 := by
          constructor
          · intro h
            apply Classical.byContradiction
            intro hne
            exact h i (by omega) hid ((hgrp i hid).2 g1)
          · intro h q h1 h2 h3
            exact g3 q (by omega) (by simp; omega) ((hgrp q h2).1 h3)
        rw [hex]
        by_cases hi' : i = m.1
        · subst hi'
          have := ih ms m.1 (by omega) (hms.tail (Nat.le_refl _))
          rw [← this, hlen, show m.1 + (m.2 - m.1) = m.2 by omega]
          cases rpartLoop s n ms (s.take m.1) with
          | error e => simp
          | ok r => simp [hlt, hm.2]
        · have hno : (s.take d).drop (i + (group s m).length) ≠ (s.take d).drop m.2 := by
            intro h
            have := congrArg List.length h
            simp [hlen] at this
            omega
          cases rpartLoop s n ms (s.take i) with
          | error e => simp [hi']
          | ok r => simp [hi', hno]
      · have he : group s m = [] := by rw [← List.length_eq_zero_iff]; omega
        rw [rpartLoop, rpartition, if_pos he]
        simp [hlt]

/-- C93: re_rpartition splits at exactly the matches of reversed_re_finditer if, and only if, each of those used is not
empty and is the last place where its text is found in the string up to the match before. -/
theorem C93_rexact_iff {M : Matcher} (hM : M.Lawful) (s : List α) (hs : M.len = s.length) (count : Nat)
    {ys : List Span} (hys : reversedFinditer M = .ok ys) :
    reRpartition M s count = .ok (weave
      (List.replicate (count - ys.length) [] ++ between s 0 (ys.take count).reverse)
      (padTo count ys).reverse) ↔ LastOcc s s.length (ys.take count) := by
  have := rpartLoop_iff s count ys s.length (Nat.le_refl _) (hs ▸ reversed_upTo hM hys)
  rw [List.take_length] at this
  rw [← this, reRpartition_eq M s count hys]
  have hbl : ∀ (l : List Span) (p : Nat), (between s p l).length = l.length + 1 := by
    intro l
    induction l with
    | nil => intro p; rfl
    | cons m l ih => intro p; rw [between, List.length_cons, ih]; rfl
  have hw := weave_reverse ((between s 0 (ys.take count).reverse).reverse ++ List.replicate (count - ys.length) []) (padTo count ys)
    (by rw [padTo_length]; simp [hbl]; omega)
  rw [List.reverse_append, List.reverse_reverse, List.reverse_replicate] at hw
  rw [← hw]
  cases rpartLoop s count ys s with
  | error e => simp [Except.map]
  | ok r => simp [Except.map]

/-- A match that is the first place of its text, and one that is not: `(?<=b)a` on "aba". -/
example : FirstOcc "a,b,a".toList 0 [(1, 2), (3, 4)] ∧ ¬ FirstOcc "aba".toList 0 [(2, 3)] := by
  refine ⟨⟨by decide, ?_, by decide, ?_, trivial⟩, ?_⟩
  · intro q h1 h2
    have : q = 0 := by omega
    subst this; decide
  · intro q h1 h2
    have : q = 2 := by dsimp only at h1 h2; omega
    subst this; decide
  · rintro ⟨-, h, -⟩
    exact h 0 (by omega) (by omega) (by decide)

end Big.RePart
