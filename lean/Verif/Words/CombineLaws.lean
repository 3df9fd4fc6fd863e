import Verif.Words.CombineProps
/-! # C135: the laws of combine_splits -/
namespace Big.Words

variable {α : Type}

/-- Pieces that are not empty are determined by their join and by where they are cut. -/
theorem pieces_unique : ∀ (s : List α) (ps qs : List (List α)), (∀ p ∈ ps, p ≠ []) → (∀ q ∈ qs, q ≠ []) →
    ps.flatten = s → qs.flatten = s →
    (∀ pre suf, s = pre ++ suf → pre ≠ [] → suf ≠ [] → (CutAfter ps pre ↔ CutAfter qs pre)) → ps = qs := by
  intro s ps
  induction ps generalizing s with
  | nil =>
    intro qs _ h2 h3 h4 _
    cases qs with
    | nil => rfl
    | cons q qs =>
      rw [← h3] at h4
      simp only [List.flatten_nil, List.flatten_cons, List.append_eq_nil_iff] at h4
      exact absurd h4.1 (h2 q (by simp))
  | cons p ps ih =>
    intro qs h1 h2 h3 h4 h5
    have hp := h1 p (by simp)
    cases qs with
    | nil =>
      rw [← h3] at h4
      simp only [List.flatten_nil, List.flatten_cons, List.nil_eq, List.append_eq_nil_iff] at h4
      exact absurd h4.1 hp
    | cons q qs =>
      have hq := h2 q (by simp)
      rw [List.flatten_cons] at h3 h4
      have cutp : CutAfter (p :: ps) p := ⟨[p], ps, rfl, by simp⟩
      have cutq : CutAfter (q :: qs) q := ⟨[q], qs, rfl, by simp⟩
      have no : ∀ (x y : List α) (zs : List (List α)), x ≠ [] → x.length < y.length → ¬ CutAfter (y :: zs) x := by
        intro x y zs hx hl h
        rcases cutAfter_cons.1 h with h | ⟨r, h, _⟩
        · exact hx h
        · rw [h] at hl; simp at hl; omega
      have hlen : p.length = q.length := by
        rcases Nat.lt_trichotomy p.length q.length with h | h | h
        · exfalso
          refine no p q qs hp h ((h5 p ps.flatten h3.symm hp ?_).1 cutp)
          intro h'
          rw [h', List.append_nil] at h3
          rw [h3, ← h4] at h; simp at h; omega
        · exact h
        · exfalso
          refine no q p ps hq h ((h5 q qs.flatten h4.symm hq ?_).2 cutq)
          intro h'
          rw [h', List.append_nil] at h4
          rw [h4, ← h3] at h; simp at h; omega
      obtain ⟨rfl, hrest⟩ := List.append_inj (h3.trans h4.symm) hlen
      congr 1
      refine ih ps.flatten qs (fun x hx => h1 x (by simp [hx])) (fun x hx => h2 x (by simp [hx])) rfl hrest.symm ?_
      intro pre suf hs hpre hsuf
      have := h5 (p ++ pre) suf (by rw [← h3, hs, List.append_assoc]) (by simp [hp]) hsuf
      rw [cutAfter_cons, cutAfter_cons] at this
      simpa [hp, List.append_cancel_left_eq] using this

/-- The lengths after which an array is cut. -/
def CutAtLength (arr : List (List α)) (n : Nat) : Prop := ∃ l₁ l₂, arr = l₁ ++ l₂ ∧ l₁.flatten.length = n

/-- C135: the result depends on nothing but the positions, inside the string, at which some array is cut: not
on the order of the arrays, nor on which array has a cut, how often, or what is in the pieces. -/
theorem C135_only_the_cuts_matter (s : List α) (a b : List (List (List α)))
    (ha : ∀ arr ∈ a, arr.flatten.length ≤ s.length) (hb : ∀ arr ∈ b, arr.flatten.length ≤ s.length)
    (h : ∀ n, 0 < n → n < s.length → ((∃ arr ∈ a, CutAtLength arr n) ↔ ∃ arr ∈ b, CutAtLength arr n)) :
    combineSplits s a = combineSplits s b := by
  obtain ⟨ps, p1, p2, p3, p4⟩ := C45_combine_splits s a ha
  obtain ⟨qs, q1, q2, q3, q4⟩ := C45_combine_splits s b hb
  rw [p1, q1]
  congr 1
  refine pieces_unique s ps qs p2 q2 p3 q3 ?_
  intro pre suf hs hp hsuf
  rw [p4 pre suf hs hp hsuf, q4 pre suf hs hp hsuf]
  refine h pre.length (List.length_pos_iff.2 hp) ?_
  have := List.length_pos_iff.2 hsuf
  rw [hs, List.length_append]; omega

/-- C135: the order of the arrays does not matter, nor whether one is given more than once. -/
theorem C135_order_and_repetition (s : List α) (a b : List (List (List α)))
    (ha : ∀ arr ∈ a, arr.flatten.length ≤ s.length) (h : ∀ arr, arr ∈ a ↔ arr ∈ b) :
    combineSplits s a = combineSplits s b := by
  refine C135_only_the_cuts_matter s a b ha (fun arr hr => ha arr ((h arr).2 hr)) (fun n _ _ => ?_)
  constructor <;> rintro ⟨arr, h1, h2⟩
  · exact ⟨arr, (h arr).1 h1, h2⟩
  · exact ⟨arr, (h arr).2 h1, h2⟩

/-- C135: combining the result of a call with more arrays is the same as one call with all of them. -/
theorem C135_nested (s : List α) (a b : List (List (List α)))
    (ha : ∀ arr ∈ a, arr.flatten.length ≤ s.length) (hb : ∀ arr ∈ b, arr.flatten.length ≤ s.length) :
    combineSplits s ((combineSplits s a).1 :: b) = combineSplits s (a ++ b) := by
  obtain ⟨ps, p1, p2, p3, p4⟩ := C45_combine_splits s a ha
  rw [p1]
  dsimp only
  refine C135_only_the_cuts_matter s _ _ ?_ ?_ ?_
  · intro arr hr
    rcases List.mem_cons.1 hr with rfl | hr
    · rw [p3]; exact Nat.le_refl _
    · exact hb arr hr
  · intro arr hr
    rcases List.mem_append.1 hr with hr | hr
    · exact ha arr hr
    · exact hb arr hr
  · intro n hn hns
    have key := p4 (s.take n) (s.drop n) (List.take_append_drop n s).symm
      (by intro h; have := congrArg List.length h; rw [List.length_take, List.length_nil] at this; omega)
      (by intro h; have := congrArg List.length h; rw [List.length_drop, List.length_nil] at this; omega)
    rw [cutAfter_iff_cutAt p3 (List.take_append_drop n s).symm] at key
    have hl : (s.take n).length = n := by simp; omega
    rw [hl] at key
    simp only [List.mem_cons, exists_eq_or_imp, List.mem_append]
    constructor
    · rintro (h | ⟨arr, h, h'⟩)
      · obtain ⟨arr, h1, h2⟩ := key.1 h
        exact ⟨arr, .inl h1, h2⟩
      · exact ⟨arr, .inr h, h'⟩
    · rintro ⟨arr, h | h, h'⟩
      · exact .inl (key.2 ⟨arr, h, h'⟩)
      · exact .inr ⟨arr, h, h'⟩

/-- C135: one array that joins to the string is given back, without its empty strings. -/
theorem C135_one (s : List α) (arr : List (List α)) (h : arr.flatten = s) :
    combineSplits s [arr] = (arr.filter (fun p => !p.isEmpty), none) := by
  obtain ⟨ps, p1, p2, p3, p4⟩ := C45_union_of_boundaries s [arr] (by simpa using h)
  rw [p1]
  congr 1
  have hf : ∀ l : List (List α), (l.filter (fun p => !p.isEmpty)).flatten = l.flatten := by
    intro l
    induction l with
    | nil => rfl
    | cons x l ih =>
      rw [List.filter_cons]
      cases x with
      | nil => simpa using ih
      | cons c x => simp [ih]
  refine pieces_unique s _ _ p2 ?_ p3 (by rw [hf, h]) ?_
  · intro p hp h'; subst h'; simp at hp
  · intro pre suf hs hp hsuf
    rw [p4 pre suf hs hp hsuf]
    simp only [List.mem_singleton, exists_eq_left]
    have key : ∀ (arr : List (List α)) (pre : List α), CutAfter arr pre ↔ CutAfter (arr.filter (fun p => !p.isEmpty)) pre := by
      intro arr
      induction arr with
      | nil => intro pre; exact Iff.rfl
      | cons x arr ih =>
        intro pre
        rw [List.filter_cons]
        cases x with
        | nil =>
          rw [cutAfter_cons]
          simp only [List.nil_append, exists_eq_left', List.isEmpty_nil, Bool.not_true, Bool.false_eq_true, if_false]
          rw [← ih]
          constructor
          · rintro (rfl | h)
            · exact ⟨[], _, rfl, rfl⟩
            · exact h
          · exact .inr
        | cons c x =>
          simp only [List.isEmpty_cons, Bool.not_false, if_true]
          rw [cutAfter_cons, cutAfter_cons]
          simp only [ih]
    exact key arr pre

/-- C135: with no arrays, or arrays that are not cut inside the string, the string is given whole. -/
theorem C135_none (s : List α) (arrays : List (List (List α)))
    (ha : ∀ arr ∈ arrays, arr.flatten.length ≤ s.length)
    (h : ∀ n, 0 < n → n < s.length → ∀ arr ∈ arrays, ¬ CutAtLength arr n) :
    combineSplits s arrays = (if s.isEmpty then [] else [s], none) := by
  have h0 : combineSplits s [] = (if s.isEmpty then [] else [s], none) := by
    obtain ⟨ps, p1, p2, p3, p4⟩ := C45_combine_splits s [] (by simp)
    rw [p1]
    congr 1
    refine pieces_unique s _ _ p2 ?_ p3 ?_ ?_
    · intro q hq; split at hq <;> simp_all
    · split <;> simp_all
    · intro pre suf hs hp hsuf
      rw [p4 pre suf hs hp hsuf]
      simp only [List.not_mem_nil, false_and, exists_false, false_iff]
      have : s.isEmpty = false := by
        cases s with
        | nil => simp at hs; exact absurd hs.1 hp
        | cons c s => rfl
      rw [this]
      simp only [Bool.false_eq_true, if_false]
      intro hc
      rcases cutAfter_cons.1 hc with hc | ⟨r, hc, _⟩
      · exact hp hc
      · have h1 := congrArg List.length hc
        have h2 := congrArg List.length hs
        have h3 := List.length_pos_iff.2 hsuf
        simp only [List.length_append] at h1 h2; omega
  rw [← h0]
  refine C135_only_the_cuts_matter s _ _ ha (by simp) (fun n hn hns => ?_)
  simp only [List.not_mem_nil, false_and, exists_false, iff_false]
  rintro ⟨arr, h1, h2⟩
  exact h n hn hns arr h1 h2

/-! ### examples -/

example : combineSplits "abcde".toList [["ab".toList, "cde".toList], ["abc".toList, [], "de".toList]] =
    combineSplits "abcde".toList [["abc".toList, "de".toList], ["ab".toList, "cde".toList], ["abc".toList, [], "de".toList]] := by
  decide +kernel

/-- C135: with an array that is longer than the string the order matters: one order raises the exception before
anything is given, and it may even go unnoticed. -/
theorem C135_counterexample_too_long :
    combineSplits "ab".toList [["ab".toList], ["ab".toList, "c".toList]] = (["ab".toList], none) ∧
    combineSplits "ab".toList [["ab".toList, "c".toList]] = (["ab".toList], some .valueError) := by
  decide +kernel

end Big.Words
