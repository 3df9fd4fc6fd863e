import Verif.RePart.Model
/-! # Lemmas on finditer, partition and re_partition -/
namespace Big.RePart

/-! ### finditer -/

/-- Spans from left to right. -/
def InOrder (l : List Span) : Prop := l.Pairwise (fun a b => a.2 ≤ b.1 ∧ a ≠ b)

theorem findFrom_spec {M : Matcher} (hM : M.Lawful) (fuel : Nat) : ∀ pos must,
    (∀ t ∈ findFrom M fuel pos must, pos ≤ t.1 ∧ t.1 ≤ t.2 ∧ t.2 ≤ M.len ∧ M.IsMatch t ∧ (must = true → t ≠ (pos, pos))) ∧
    InOrder (findFrom M fuel pos must) := by
  induction fuel with
  | zero => intro pos must; exact ⟨by simp [findFrom], .nil⟩
  | succ fuel ih =>
    intro pos must
    rw [findFrom]
    by_cases hp : pos > M.len
    · rw [if_pos hp]; exact ⟨by simp, .nil⟩
    · rw [if_neg hp]
      cases hm : (if must = true then M.adv pos else M.at_ pos M.len) with
      | none =>
        dsimp only
        obtain ⟨h1, h2⟩ := ih (pos + 1) false
        refine ⟨fun t ht => ?_, h2⟩
        obtain ⟨g1, g2, g3, g4, -⟩ := h1 t ht
        exact ⟨by omega, g2, g3, g4, fun _ h => by subst h; dsimp only at g1; omega⟩
      | some e =>
        dsimp only
        have hthis : pos ≤ e ∧ e ≤ M.len ∧ M.IsMatch (pos, e) ∧ (must = true → e ≠ pos) := by
          cases must with
          | true =>
            simp only [if_true] at hm
            have := hM.adv_lt _ _ hm
            exact ⟨by omega, this.2, .inr hm, fun _ => by omega⟩
          | false =>
            simp only [Bool.false_eq_true, if_false] at hm
            have := hM.at_le _ _ _ hm
            exact ⟨this.1, this.2, .inl ⟨M.len, Nat.le_refl _, hm⟩, by simp⟩
        obtain ⟨h1, h2⟩ := ih e (e == pos)
        refine ⟨?_, ?_⟩
        · intro t ht
          rcases List.mem_cons.1 ht with rfl | ht
          · exact ⟨Nat.le_refl _, hthis.1, hthis.2.1, hthis.2.2.1, fun h h' => hthis.2.2.2 h (by simpa using h')⟩
          · obtain ⟨g1, g2, g3, g4, g5⟩ := h1 t ht
            refine ⟨by omega, g2, g3, g4, ?_⟩
            rintro hmust rfl
            dsimp only at g1
            exact hthis.2.2.2 hmust (by omega)
        · refine List.Pairwise.cons ?_ h2
          intro t ht
          obtain ⟨g1, g2, g3, g4, g5⟩ := h1 t ht
          refine ⟨g1, ?_⟩
          rintro rfl
          dsimp only at g1
          have : e = pos := by omega
          subst this
          exact g5 (by simp) rfl

theorem finditer_spec {M : Matcher} (hM : M.Lawful) :
    (∀ t ∈ finditer M, t.1 ≤ t.2 ∧ t.2 ≤ M.len ∧ M.IsMatch t) ∧ InOrder (finditer M) := by
  obtain ⟨h1, h2⟩ := findFrom_spec hM (2 * M.len + 3) 0 false
  exact ⟨fun t ht => ⟨(h1 t ht).2.1, (h1 t ht).2.2.1, (h1 t ht).2.2.2.1⟩, h2⟩

/-- The bound on the number of steps is never reached. -/
theorem findFrom_enough {M : Matcher} (hM : M.Lawful) : ∀ (f g pos : Nat) (must : Bool),
    2 * (M.len + 1 - pos) + (if must then 0 else 1) ≤ f → 2 * (M.len + 1 - pos) + (if must then 0 else 1) ≤ g →
    findFrom M (f + 1) pos must = findFrom M (g + 1) pos must := by
  intro f
  induction f with
  | zero =>
    intro g pos must hf hg
    rw [findFrom.eq_2, findFrom.eq_2]
    have : pos > M.len := by cases must <;> simp at hf <;> omega
    rw [if_pos this, if_pos this]
  | succ f ih =>
    intro g pos must hf hg
    conv => lhs; rw [findFrom]
    conv => rhs; rw [findFrom]
    by_cases hp : pos > M.len
    · rw [if_pos hp, if_pos hp]
    · rw [if_neg hp, if_neg hp]
      cases g with
      | zero => exfalso; cases must <;> simp at hg <;> omega
      | succ g =>
        cases hm : (if must = true then M.adv pos else M.at_ pos M.len) with
        | none =>
          dsimp only
          apply ih
          · cases must <;> simp at hf ⊢ <;> omega
          · cases must <;> simp at hg ⊢ <;> omega
        | some e =>
          dsimp only
          have hthis : pos ≤ e ∧ e ≤ M.len ∧ (must = true → e ≠ pos) := by
            cases must with
            | true =>
              simp only [if_true] at hm
              have := hM.adv_lt _ _ hm
              exact ⟨by omega, this.2, fun _ => by omega⟩
            | false =>
              simp only [Bool.false_eq_true, if_false] at hm
              have := hM.at_le _ _ _ hm
              exact ⟨this.1, this.2, by simp⟩
          have key : ∀ k, 2 * (M.len + 1 - pos) + (if must then 0 else 1) ≤ k + 1 →
              2 * (M.len + 1 - e) + (if e == pos then 0 else 1) ≤ k := by
            intro k hk
            by_cases he : e = pos
            · have : must = false := by
                cases must with
                | false => rfl
                | true => exact absurd he (hthis.2.2 rfl)
              subst he; subst this
              simp at hk ⊢; omega
            · have : (e == pos) = false := by simpa using he
              rw [this]
              cases must <;> simp at hk ⊢ <;> omega
          rw [ih g e (e == pos) (key f hf) (key g hg)]

/-- Wherever the pattern matches, finditer has a match at that place or one that goes on there. -/
theorem findFrom_cover {M : Matcher} (hM : M.Lawful) (hpos : ∀ p q e, M.at_ p q = some e → p < e) (fuel : Nat) : ∀ pos,
    M.len + 1 - pos ≤ fuel → ∀ p e, pos ≤ p → M.at_ p M.len = some e →
    ∃ t ∈ findFrom M (fuel + 1) pos false, t.1 ≤ p ∧ p < t.2 := by
  induction fuel with
  | zero =>
    intro pos hf p e hp he
    have := hM.at_le _ _ _ he
    omega
  | succ fuel ih =>
    intro pos hf p e hp he
    rw [findFrom]
    have hle := hM.at_le _ _ _ he
    rw [if_neg (by omega)]
    simp only [Bool.false_eq_true, if_false]
    cases hm : M.at_ pos M.len with
    | none =>
      dsimp only
      have hne : p ≠ pos := by rintro rfl; rw [he] at hm; simp at hm
      exact ih (pos + 1) (by omega) p e (by omega) he
    | some e' =>
      dsimp only
      have h1 := hpos _ _ _ hm
      by_cases hpe : p < e'
      · exact ⟨(pos, e'), by simp, hp, hpe⟩
      · have : (e' == pos) = false := by simp; omega
        rw [this]
        obtain ⟨t, ht, h2⟩ := ih e' (by omega) p e (by omega) he
        exact ⟨t, by simp [ht], h2⟩

theorem finditer_cover {M : Matcher} (hM : M.Lawful) (hpos : ∀ p q e, M.at_ p q = some e → p < e) (p e : Nat)
    (h : M.at_ p M.len = some e) : ∃ t ∈ finditer M, t.1 ≤ p ∧ p < t.2 :=
  findFrom_cover hM hpos (2 * M.len + 2) 0 (by omega) p e (by omega) h

/-- Without empty matches, every match of finditer is one that `match` finds. -/
theorem findFrom_at {M : Matcher} (hpos : ∀ p q e, M.at_ p q = some e → p < e) (fuel : Nat) :
    ∀ pos, ∀ t ∈ findFrom M fuel pos false, M.at_ t.1 M.len = some t.2 := by
  induction fuel with
  | zero => intro pos t ht; simp [findFrom] at ht
  | succ fuel ih =>
    intro pos t ht
    rw [findFrom] at ht
    split at ht
    · simp at ht
    · simp only [Bool.false_eq_true, if_false] at ht
      cases hm : M.at_ pos M.len with
      | none => rw [hm] at ht; exact ih _ t ht
      | some e =>
        rw [hm] at ht
        have := hpos _ _ _ hm
        have he : (e == pos) = false := by simp; omega
        dsimp only at ht
        rw [he] at ht
        rcases List.mem_cons.1 ht with rfl | ht
        · exact hm
        · exact ih _ t ht

/-! ### find and rfind -/

variable {α : Type} [DecidableEq α]

theorem findSub_some {w s : List α} {i : Nat} (h : findSub w s = some i) :
    w <+: s.drop i ∧ i ≤ s.length ∧ ∀ j < i, ¬ w <+: s.drop j := by
  induction s generalizing i with
  | nil =>
    unfold findSub at h
    split at h
    · cases h; subst w; exact ⟨by simp, by simp, by omega⟩
    · simp at h
  | cons c s ih =>
    unfold findSub at h
    split at h
    · rename_i hp; cases h
      exact ⟨List.isPrefixOf_iff_prefix.1 hp, by simp, by omega⟩
    · rename_i hp
      cases hf : findSub w s with
      | none => rw [hf] at h; simp at h
      | some k =>
        rw [hf] at h; simp at h; subst h
        obtain ⟨h1, h2, h3⟩ := ih hf
        refine ⟨by simpa using h1, by simp; omega, ?_⟩
        intro j hj
        cases j with
        | zero => intro hh; exact hp (List.isPrefixOf_iff_prefix.2 hh)
        | succ j => simpa using h3 j (by omega)

theorem findSub_of_prefix {w s : List α} {j : Nat} (h : w <+: s.drop j) (hj : j ≤ s.length) :
    ∃ i, findSub w s = some i ∧ i ≤ j := by
  induction s generalizing j with
  | nil =>
    have : w = [] := by simpa using h
    exact ⟨0, by simp [findSub, this], by omega⟩
  | cons c s ih =>
    unfold findSub
    by_cases hp : w.isPrefixOf (c :: s) = true
    · rw [if_pos hp]; exact ⟨0, rfl, by omega⟩
    · rw [if_neg hp]
      cases j with
      | zero => exact absurd (List.isPrefixOf_iff_prefix.2 h) hp
      | succ j =>
        obtain ⟨i, h1, h2⟩ := ih (by simpa using h) (by simpa using hj)
        exact ⟨i + 1, by simp [h1], by omega⟩

theorem rfindSub_some {w s : List α} {i : Nat} (h : rfindSub w s = some i) :
    w <+: s.drop i ∧ i ≤ s.length ∧ ∀ j, i < j → j ≤ s.length → ¬ w <+: s.drop j := by
  induction s generalizing i with
  | nil =>
    unfold rfindSub at h
    split at h
    · cases h; subst w; exact ⟨by simp, by simp, by intro j h1 h2; simp at h2; omega⟩
    · simp at h
  | cons c s ih =>
    unfold rfindSub at h
    cases hf : rfindSub w s with
    | some k =>
      rw [hf] at h; simp at h; subst h
      obtain ⟨h1, h2, h3⟩ := ih hf
      refine ⟨by simpa using h1, by simp; omega, ?_⟩
      intro j hj hl
      cases j with
      | zero => omega
      | succ j => simpa using h3 j (by omega) (by simpa using hl)
    | none =>
      rw [hf] at h
      dsimp only at h
      split at h
      · rename_i hp; cases h
        refine ⟨List.isPrefixOf_iff_prefix.1 hp, by simp, ?_⟩
        intro j hj hl hw
        cases j with
        | zero => omega
        | succ j =>
          -- some place would have been found
          have key : ∀ (s : List α) (j : Nat), j ≤ s.length → w <+: s.drop j → rfindSub w s ≠ none := by
            intro s
            induction s with
            | nil => intro j _ hw h; simp at hw; simp [rfindSub, hw] at h
            | cons d s ih =>
              intro j hj hw h
              unfold rfindSub at h
              cases hf : rfindSub w s with
              | some k => rw [hf] at h; simp at h
              | none =>
                rw [hf] at h
                cases j with
                | zero => simp at h; exact h hw
                | succ j => exact ih j (by simpa using hj) (by simpa using hw) hf
          exact key s j (by simpa using hl) (by simpa using hw) hf
      · simp at h

theorem rfindSub_of_prefix {w s : List α} {j : Nat} (h : w <+: s.drop j) (hj : j ≤ s.length) :
    ∃ i, rfindSub w s = some i ∧ j ≤ i := by
  induction s generalizing j with
  | nil =>
    have : w = [] := by simpa using h
    exact ⟨0, by simp [rfindSub, this], by simpa using hj⟩
  | cons c s ih =>
    unfold rfindSub
    cases hf : rfindSub w s with
    | some k =>
      refine ⟨k + 1, rfl, ?_⟩
      cases j with
      | zero => omega
      | succ j =>
        obtain ⟨i, h1, h2⟩ := ih (by simpa using h) (by simpa using hj)
        rw [hf] at h1; cases h1; omega
    | none =>
      cases j with
      | zero => exact ⟨0, by simpa using h, by omega⟩
      | succ j =>
        obtain ⟨i, h1, h2⟩ := ih (by simpa using h) (by simpa using hj)
        rw [hf] at h1; simp at h1

omit [DecidableEq α] in
theorem prefix_drop_eq {w s : List α} {i : Nat} (h : w <+: s.drop i) : s.take i ++ w ++ s.drop (i + w.length) = s := by
  obtain ⟨t, ht⟩ := h
  have h2 : s.drop (i + w.length) = t := by
    rw [← List.drop_drop, ← ht]; simp
  rw [h2, List.append_assoc, ht, List.take_append_drop]

omit [DecidableEq α] in
theorem group_length (s : List α) (m : Span) (h1 : m.1 ≤ m.2) (h2 : m.2 ≤ s.length) : (group s m).length = m.2 - m.1 := by
  unfold group; simp; omega

omit [DecidableEq α] in
/-- The text of a match is found where the match is. -/
theorem group_prefix (s : List α) (m : Span) (d : Nat) (h : d ≤ m.1) : group s m <+: (s.drop d).drop (m.1 - d) := by
  rw [List.drop_drop, show d + (m.1 - d) = m.1 by omega]
  unfold group
  exact ⟨(s.drop m.1).drop (m.2 - m.1), by rw [List.drop_take]; exact List.take_append_drop _ _⟩

/-! ### re_partition -/

/-- Matches in order, from `d` on. -/
def From (n d : Nat) (ms : List Span) : Prop := (∀ t ∈ ms, d ≤ t.1 ∧ t.1 ≤ t.2 ∧ t.2 ≤ n) ∧ ms.Pairwise (fun a b => a.2 ≤ b.1)

theorem From.tail {n d : Nat} {m : Span} {ms : List Span} (h : From n d (m :: ms)) {d' : Nat} (hd : d' ≤ m.2) : From n d' ms := by
  refine ⟨fun t ht => ?_, (List.pairwise_cons.1 h.2).2⟩
  have h1 := (List.pairwise_cons.1 h.2).1 t ht
  have h2 := h.1 t (by simp [ht])
  exact ⟨by omega, h2.2⟩

theorem finditer_from {M : Matcher} (hM : M.Lawful) : From M.len 0 (finditer M) := by
  obtain ⟨h1, h2⟩ := finditer_spec hM
  exact ⟨fun t ht => ⟨by omega, (h1 t ht).1, (h1 t ht).2.1⟩, h2.imp (fun h => h.1)⟩

theorem weave_nones (s : List α) : ∀ (n : Nat),
    (.text s :: (List.replicate n ([.found none, .text []] : List (Elem α))).flatten) =
      weave (s :: List.replicate n []) (List.replicate n none) := by
  intro n
  induction n generalizing s with
  | zero => rfl
  | succ n ih =>
    rw [List.replicate_succ, List.replicate_succ, List.replicate_succ, List.flatten_cons, weave, ← ih]
    rfl

/-- What the loop of re_partition returns. -/
theorem partLoop_spec (s : List α) : ∀ (n : Nat) (ms : List Span) (d : Nat), d ≤ s.length → From s.length d ms →
    (∀ t ∈ ms.take n, t.1 < t.2) →
    ∃ ts, partLoop s n ms (s.drop d) = .ok (weave ts (padTo n ms)) ∧ ts.length = n + 1 ∧
      ((weave ts (padTo n ms)).map (·.str s)).flatten = s.drop d := by
  intro n
  induction n with
  | zero =>
    intro ms d _ _ _
    refine ⟨[s.drop d], ?_, rfl, ?_⟩
    · rw [partLoop]; simp [padTo, weave]
    · simp [padTo, weave, Elem.str]
  | succ n ih =>
    intro ms d hd hms hne
    cases ms with
    | nil =>
      refine ⟨s.drop d :: List.replicate (n + 1) [], ?_, by simp, ?_⟩
      · rw [partLoop, weave_nones]; simp [padTo]
      · have hp : padTo (n + 1) [] = List.replicate (n + 1) none := by simp [padTo]
        rw [hp, ← weave_nones]
        rw [List.map_cons, List.flatten_cons, show (Elem.text (s.drop d)).str s = s.drop d from rfl]
        have : ∀ k, (List.map (fun x : Elem α => x.str s) (List.replicate k ([.found none, .text []] : List (Elem α))).flatten).flatten = [] := by
          intro k
          induction k with
          | zero => rfl
          | succ k ih => rw [List.replicate_succ, List.flatten_cons, List.map_append, List.flatten_append, ih]; simp [Elem.str]
        rw [this]; simp
    | cons m ms =>
      have hm := hms.1 m (by simp)
      have hlt := hne m (by simp)
      have hlen := group_length s m hm.2.1 hm.2.2
      have hne0 : group s m ≠ [] := by intro h; rw [h] at hlen; simp at hlen; omega
      have hp := group_prefix s m d hm.1
      obtain ⟨i, hi, hile⟩ := findSub_of_prefix hp (by simp; omega)
      obtain ⟨g1, g2, -⟩ := findSub_some hi
      rw [partLoop, partition, if_neg hne0, hi]
      dsimp only
      rw [hlen, List.drop_drop]
      obtain ⟨ts, k1, k2, k3⟩ := ih ms (d + (i + (m.2 - m.1))) (by omega) (hms.tail (by omega)) (fun t ht => hne t (by simp [ht]))
      rw [k1]
      have hpad : padTo (n + 1) (m :: ms) = some m :: padTo n ms := by simp [padTo]
      refine ⟨(s.drop d).take i :: ts, ?_, by simp [k2], ?_⟩
      · rw [hpad]; rfl
      · rw [hpad, weave]
        rw [List.map_cons, List.map_cons, List.flatten_cons, List.flatten_cons, show (Elem.text ((s.drop d).take i)).str s = (s.drop d).take i from rfl,
          show (Elem.found (some m)).str s = group s m from rfl]
        rw [k3, ← hlen, ← List.append_assoc, ← List.drop_drop]
        exact prefix_drop_eq g1

/-- An empty match among those used is an error. -/
theorem partLoop_error (s : List α) : ∀ (n : Nat) (ms : List Span) (d : Nat), d ≤ s.length → From s.length d ms →
    (∃ t ∈ ms.take n, t.1 = t.2) → partLoop s n ms (s.drop d) = .error .valueError := by
  intro n
  induction n with
  | zero => intro ms d _ _ ⟨t, ht, _⟩; simp at ht
  | succ n ih =>
    intro ms d hd hms ⟨t, ht, hte⟩
    cases ms with
    | nil => simp at ht
    | cons m ms =>
      have hm := hms.1 m (by simp)
      have hlen := group_length s m hm.2.1 hm.2.2
      rw [partLoop, partition]
      by_cases h0 : group s m = []
      · rw [if_pos h0]
      · rw [if_neg h0]
        have hp := group_prefix s m d hm.1
        obtain ⟨i, hi, hile⟩ := findSub_of_prefix hp (by simp; omega)
        rw [hi]
        dsimp only
        rw [hlen, List.drop_drop]
        have : t ∈ ms.take n := by
          rw [List.take_succ_cons] at ht
          rcases List.mem_cons.1 ht with rfl | ht
          · exfalso
            rw [List.length_eq_zero_iff.symm, hlen] at h0; omega
          · exact ht
        rw [ih ms (d + (i + (m.2 - m.1))) (by omega) (hms.tail (by omega)) ⟨t, this, hte⟩]

/-- Every place where the pattern matches, from `d` on, is within a match. -/
def Covered (M : Matcher) (d : Nat) (ms : List Span) : Prop :=
  ∀ p e, d ≤ p → M.at_ p M.len = some e → ∃ t ∈ ms, t.1 ≤ p ∧ p < t.2

/-- For a textual pattern the texts are those between the matches. -/
theorem partLoop_exact (M : Matcher) (s : List α) (hM : M.Lawful) (hT : Textual M s) : ∀ (n : Nat) (ms : List Span) (d : Nat), d ≤ s.length →
    From s.length d ms → (∀ t ∈ ms, M.at_ t.1 M.len = some t.2) → Covered M d ms →
    partLoop s n ms (s.drop d) = .ok (weave (between s d (ms.take n) ++ List.replicate (n - ms.length) []) (padTo n ms)) := by
  intro n
  induction n with
  | zero =>
    intro ms d _ _ _ _
    rw [partLoop]; simp [padTo, between, weave]
  | succ n ih =>
    intro ms d hd hms hat hcov
    cases ms with
    | nil =>
      rw [partLoop, weave_nones]; simp [padTo, between]
    | cons m ms =>
      have hm := hms.1 m (by simp)
      have hma := hat m (by simp)
      have hlt := hT.pos _ _ _ hma
      have hlen := group_length s m hm.2.1 hm.2.2
      have hne0 : group s m ≠ [] := by intro h; rw [h] at hlen; simp at hlen; omega
      have hp := group_prefix s m d hm.1
      obtain ⟨i, hi, hile⟩ := findSub_of_prefix hp (by simp; omega)
      obtain ⟨g1, g2, -⟩ := findSub_some hi
      -- the first occurrence is the match
      have hi' : i = m.1 - d := by
        by_cases h : i < m.1 - d
        · exfalso
          have hg : group s (d + i, d + i + (m.2 - m.1)) = group s (m.1, m.2) := by
            have hg := g1
            rw [List.drop_drop] at hg
            obtain ⟨t, ht⟩ := hg
            show (s.take (d + i + (m.2 - m.1))).drop (d + i) = group s m
            rw [List.drop_take, ← ht, show d + i + (m.2 - m.1) - (d + i) = (group s m).length by omega]
            simp
          obtain ⟨e', h1, h2⟩ := hT.again m.1 M.len m.2 (d + i) M.len hma (by rw [hT.len]; omega) (by rw [hT.len]; omega)
            (by rw [hT.len]; omega) hg
          obtain ⟨t, ht, h3, h4⟩ := hcov (d + i) e' (by omega) h1
          rcases List.mem_cons.1 ht with rfl | ht
          · omega
          · have := (List.pairwise_cons.1 hms.2).1 t ht
            omega
        · omega
      subst hi'
      rw [partLoop, partition, if_neg hne0, hi]
      dsimp only
      rw [hlen, List.drop_drop, show d + (m.1 - d + (m.2 - m.1)) = m.2 by omega]
      rw [ih ms m.2 hm.2.2 (hms.tail (Nat.le_refl _)) (fun t ht => hat t (by simp [ht])) (by
        intro p e hp he
        obtain ⟨t, ht, h3, h4⟩ := hcov p e (by omega) he
        rcases List.mem_cons.1 ht with rfl | ht
        · omega
        · exact ⟨t, ht, h3, h4⟩)]
      have hpad : padTo (n + 1) (m :: ms) = some m :: padTo n ms := by simp [padTo]
      rw [hpad, List.take_succ_cons, between]
      simp only [List.cons_append, List.length_cons, Nat.add_sub_add_right, weave]
      rw [List.drop_take]

end Big.RePart
