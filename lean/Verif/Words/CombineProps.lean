import Verif.Words.CombineSplits
/-! # C45: theorems about combine_splits -/
namespace Big.Words
open Big.Heap (Err heapify)

variable {α : Type}

/-- The lengths of the non-empty pieces of an array. -/
def lengthsOf (a : List (List α)) : List Nat := (a.filter (fun p => !p.isEmpty)).map List.length

theorem lengthsOf_sum (a : List (List α)) : (lengthsOf a).sum = a.flatten.length := by
  induction a with
  | nil => rfl
  | cons p a ih =>
    cases p with
    | nil => simpa [lengthsOf] using ih
    | cons x p =>
      have : lengthsOf ((x :: p) :: a) = (x :: p).length :: lengthsOf a := by simp [lengthsOf]
      rw [this, List.sum_cons, ih, List.flatten_cons, List.length_append]

theorem lengthsOf_pos (a : List (List α)) : ∀ x ∈ lengthsOf a, 0 < x := by
  intro x hx
  obtain ⟨p, hp, rfl⟩ := List.mem_map.1 hx
  have := (List.mem_filter.1 hp).2
  simp at this
  exact List.length_pos_iff.2 this

theorem lengthsOf_cuts (a : List (List α)) : ∀ n, 0 < n →
    ((∃ k, 0 < k ∧ k ≤ (lengthsOf a).length ∧ ((lengthsOf a).take k).sum = n) ↔ CutAt a n) := by
  induction a with
  | nil =>
    intro n hn
    constructor
    · rintro ⟨k, h1, h2, _⟩; simp [lengthsOf] at h2; omega
    · rintro ⟨l₁, l₂, h, e⟩
      rw [(List.append_eq_nil_iff.1 h.symm).1] at e
      simp at e; omega
  | cons p a ih =>
    intro n hn
    rw [cutAt_cons]
    cases p with
    | nil =>
      have : lengthsOf ([] :: a) = lengthsOf a := by simp [lengthsOf]
      rw [this, ih n hn]
      simp; omega
    | cons x p =>
      have : lengthsOf ((x :: p) :: a) = (x :: p).length :: lengthsOf a := by simp [lengthsOf]
      rw [this]
      generalize hw : (x :: p).length = w
      have hw0 : 0 < w := by rw [← hw]; simp
      rcases Nat.lt_trichotomy n w with h | h | h
      · constructor
        · rintro ⟨k, hk0, hkl, hs⟩
          obtain ⟨k, rfl⟩ : ∃ k', k = k' + 1 := ⟨k - 1, by omega⟩
          simp at hs; omega
        · rintro (h' | ⟨h', _⟩) <;> omega
      · subst h
        refine ⟨fun _ => .inr ⟨by omega, [], _, rfl, by simp⟩, fun _ => ⟨1, by omega, by simp, by simp⟩⟩
      · constructor
        · rintro ⟨k, hk0, hkl, hs⟩
          obtain ⟨k, rfl⟩ : ∃ k', k = k' + 1 := ⟨k - 1, by omega⟩
          simp only [List.take_succ_cons, List.sum_cons, List.length_cons] at hs hkl
          refine .inr ⟨by omega, (ih (n - w) (by omega)).1 ⟨k, ?_, by omega, by omega⟩⟩
          rcases Nat.eq_zero_or_pos k with rfl | h'
          · simp at hs; omega
          · exact h'
        · rintro (h' | ⟨_, h'⟩)
          · omega
          · obtain ⟨k, hk0, hkl, hs⟩ := (ih (n - w) (by omega)).2 h'
            exact ⟨k + 1, by omega, by simpa using hkl, by rw [List.take_succ_cons, List.sum_cons]; omega⟩

theorem cutAfter_iff_cutAt {ps : List (List α)} {s pre suf : List α} (hf : ps.flatten = s)
    (hs : s = pre ++ suf) : CutAfter ps pre ↔ CutAt ps pre.length := by
  constructor
  · rintro ⟨l₁, l₂, h, rfl⟩; exact ⟨l₁, l₂, h, rfl⟩
  · rintro ⟨l₁, l₂, rfl, e⟩
    refine ⟨l₁, l₂, rfl, ?_⟩
    rw [List.flatten_append, hs] at hf
    exact (List.append_inj hf e).1

/-- The heap combine_splits starts from. -/
def startHeap (arrays : List (List (List α))) : List (List Nat) :=
  heapify listLt ((arrays.map lengthsOf).filter (fun l => !l.isEmpty))

theorem combineSplits_run (s : List α) (arrays : List (List (List α))) :
    RunOK s (startHeap arrays) (combineSplits s arrays) ∧
    (startHeap arrays).Perm ((arrays.map lengthsOf).filter (fun l => !l.isEmpty)) := by
  have hp := Big.Heap.heapify_perm listLt ((arrays.map lengthsOf).filter (fun l => !l.isEmpty))
  refine ⟨combineLoop_spec _ s (startHeap arrays) rfl (Big.Heap.heapify_heap listLt_weak _) ?_, hp⟩
  intro a ha
  have ha := List.mem_filter.1 (hp.mem_iff.1 ha)
  obtain ⟨arr, _, rfl⟩ := List.mem_map.1 ha.1
  exact ⟨by simpa using ha.2, lengthsOf_pos arr⟩

theorem hits_start (arrays : List (List (List α))) (n : Nat) (hn : 0 < n) :
    Hits (startHeap arrays) n ↔ ∃ arr ∈ arrays, CutAt arr n := by
  rw [hits_perm (combineSplits_run ([] : List α) arrays).2]
  constructor
  · rintro ⟨a, ha, hk⟩
    obtain ⟨arr, harr, rfl⟩ := List.mem_map.1 (List.mem_filter.1 ha).1
    exact ⟨arr, harr, (lengthsOf_cuts arr n hn).1 hk⟩
  · rintro ⟨arr, harr, hc⟩
    obtain ⟨k, hk0, hkl, hs⟩ := (lengthsOf_cuts arr n hn).2 hc
    refine ⟨lengthsOf arr, List.mem_filter.2 ⟨List.mem_map.2 ⟨arr, harr, rfl⟩, ?_⟩, k, hk0, hkl, hs⟩
    cases h : lengthsOf arr with
    | nil => rw [h] at hkl; simp at hkl; omega
    | cons a l => rfl

theorem tooLong_start (arrays : List (List (List α))) (n : Nat) :
    TooLong (startHeap arrays) n ↔ ∃ arr ∈ arrays, n < arr.flatten.length := by
  have hp := (combineSplits_run ([] : List α) arrays).2
  constructor
  · rintro ⟨a, ha, h⟩
    obtain ⟨arr, harr, rfl⟩ := List.mem_map.1 (List.mem_filter.1 (hp.mem_iff.1 ha)).1
    exact ⟨arr, harr, by rwa [← lengthsOf_sum]⟩
  · rintro ⟨arr, harr, h⟩
    rw [← lengthsOf_sum] at h
    refine ⟨lengthsOf arr, hp.mem_iff.2 (List.mem_filter.2 ⟨List.mem_map.2 ⟨arr, harr, rfl⟩, ?_⟩), h⟩
    cases h' : lengthsOf arr with
    | nil => rw [h'] at h; simp at h
    | cons a l => rfl

theorem countP_start (arrays : List (List (List α))) (n : Nat) (hn : 0 < n) :
    (startHeap arrays).countP (fun a => decide (n ≤ a.sum))
      = arrays.countP (fun arr => decide (n ≤ arr.flatten.length)) := by
  rw [(combineSplits_run ([] : List α) arrays).2.countP_eq, List.countP_filter, List.countP_map]
  apply List.countP_congr
  intro arr _
  simp only [Function.comp, lengthsOf_sum, Bool.and_eq_true, decide_eq_true_eq]
  constructor
  · exact fun h => h.1
  · intro h
    refine ⟨h, ?_⟩
    cases h' : lengthsOf arr with
    | nil => have := lengthsOf_sum arr; rw [h'] at this; simp only [List.sum_nil] at this; omega
    | cons a l => rfl

/-- C45: if no split array is longer than the string, the pieces are non-empty, join to the string,
and the string is cut exactly where some array is cut. -/
theorem C45_combine_splits (s : List α) (arrays : List (List (List α)))
    (hlen : ∀ arr ∈ arrays, arr.flatten.length ≤ s.length) :
    ∃ pieces, combineSplits s arrays = (pieces, none) ∧ (∀ p ∈ pieces, p ≠ []) ∧
      pieces.flatten = s ∧
      ∀ pre suf, s = pre ++ suf → pre ≠ [] → suf ≠ [] →
        (CutAfter pieces pre ↔
          ∃ arr ∈ arrays, ∃ l₁ l₂, arr = l₁ ++ l₂ ∧ l₁.flatten.length = pre.length) := by
  obtain ⟨⟨h1, h2, h3, h4, h5⟩, _⟩ := combineSplits_run s arrays
  have hne : (combineSplits s arrays).2 = none := by
    apply Decidable.byContradiction
    intro h
    have := (h4.1 h).1
    rw [tooLong_start] at this
    obtain ⟨arr, ha, hl⟩ := this
    have := hlen arr ha
    omega
  obtain ⟨h6, h7⟩ := h5 hne
  refine ⟨(combineSplits s arrays).1, by rw [← hne], h1, h6, ?_⟩
  intro pre suf hs hp hsf
  have hp := List.length_pos_iff.2 hp
  have hsf := List.length_pos_iff.2 hsf
  rw [cutAfter_iff_cutAt h6 hs, h7 _ hp (by rw [hs, List.length_append]; omega), hits_start _ _ hp]
  rfl

/-- C45, as documented: for split arrays of the string itself, the boundaries are the union of the
boundaries of the arrays. -/
theorem C45_union_of_boundaries (s : List α) (arrays : List (List (List α)))
    (hjoin : ∀ arr ∈ arrays, arr.flatten = s) :
    ∃ pieces, combineSplits s arrays = (pieces, none) ∧ (∀ p ∈ pieces, p ≠ []) ∧
      pieces.flatten = s ∧
      ∀ pre suf, s = pre ++ suf → pre ≠ [] → suf ≠ [] →
        (CutAfter pieces pre ↔ ∃ arr ∈ arrays, CutAfter arr pre) := by
  obtain ⟨pieces, h1, h2, h3, h4⟩ := C45_combine_splits s arrays
    (fun arr ha => by rw [hjoin arr ha]; exact Nat.le_refl _)
  refine ⟨pieces, h1, h2, h3, ?_⟩
  intro pre suf hs hp hsf
  rw [h4 pre suf hs hp hsf]
  constructor
  · rintro ⟨arr, ha, h⟩
    exact ⟨arr, ha, (cutAfter_iff_cutAt (hjoin arr ha) hs).2 h⟩
  · rintro ⟨arr, ha, h⟩
    exact ⟨arr, ha, (cutAfter_iff_cutAt (hjoin arr ha) hs).1 h⟩

/-- C45, every case: it ends normally or with ValueError, what was yielded is non-empty pieces of a
prefix of the string, and it raises exactly when some array is too long, unless some array is cut
exactly at the end of the string and at least two arrays reach it (then it returns before looking
further). -/
theorem C45_too_long (s : List α) (arrays : List (List (List α))) :
    ((combineSplits s arrays).2 = none ∨ (combineSplits s arrays).2 = some .valueError) ∧
    (∀ p ∈ (combineSplits s arrays).1, p ≠ []) ∧ (combineSplits s arrays).1.flatten <+: s ∧
    ((combineSplits s arrays).2 = some .valueError ↔
      (∃ arr ∈ arrays, s.length < arr.flatten.length) ∧
      ¬ (s ≠ [] ∧ (∃ arr ∈ arrays, ∃ l₁ l₂, arr = l₁ ++ l₂ ∧ l₁.flatten.length = s.length) ∧
        2 ≤ arrays.countP (fun arr => decide (s.length ≤ arr.flatten.length)))) := by
  obtain ⟨⟨h1, h2, h3, h4, h5⟩, hp⟩ := combineSplits_run s arrays
  refine ⟨h3, h1, h2, ?_⟩
  have : (combineSplits s arrays).2 = some .valueError ↔ (combineSplits s arrays).2 ≠ none := by
    rcases h3 with h | h <;> simp [h]
  rw [this, h4]
  unfold Fails
  rw [tooLong_start]
  cases s with
  | nil =>
    have hno : ¬ Hits (startHeap arrays) 0 := by
      rintro ⟨a, ha, k, hk0, hkl, hs⟩
      obtain ⟨arr, _, rfl⟩ := List.mem_map.1 (List.mem_filter.1 (hp.mem_iff.1 ha)).1
      cases h : lengthsOf arr with
      | nil => rw [h] at hkl; simp at hkl; omega
      | cons x l =>
        have := lengthsOf_pos arr x (by rw [h]; simp)
        rw [h] at hs
        obtain ⟨k, rfl⟩ : ∃ k', k = k' + 1 := ⟨k - 1, by omega⟩
        rw [List.take_succ_cons, List.sum_cons] at hs
        omega
    simp [hno]
  | cons c s =>
    rw [hits_start _ _ (by simp), countP_start _ _ (by simp)]
    simp [CutAt]

/-- A too-long array that goes unnoticed: `combine_splits('abc', ['abc'], ['abc', 'd'])` yields
['abc'] without raising. -/
theorem C45_counterexample_unnoticed :
    ∃ arrays : List (List (List Char)), (∃ arr ∈ arrays, "abc".toList.length < arr.flatten.length) ∧
      (combineSplits "abc".toList arrays).2 = none := by
  refine ⟨[["abc".toList], ["abc".toList, "d".toList]], ?_, ?_⟩
  · exact ⟨["abc".toList, "d".toList], by simp, by decide⟩
  · rcases (C45_too_long "abc".toList [["abc".toList], ["abc".toList, "d".toList]]).1 with h | h
    · exact h
    · exfalso
      have := ((C45_too_long "abc".toList [["abc".toList], ["abc".toList, "d".toList]]).2.2.2.1 h).2
      apply this
      exact ⟨by decide, ⟨["abc".toList], by simp, ["abc".toList], [], rfl, rfl⟩, by decide⟩

/-- The documented example meets the hypotheses, with a cut from each array. -/
example : ∃ pieces, combineSplits "abcde".toList [["abcd".toList, "e".toList], ["a".toList, "bcde".toList]]
      = (pieces, none) ∧ CutAfter pieces "a".toList ∧ CutAfter pieces "abcd".toList ∧
      ¬ CutAfter pieces "ab".toList := by
  have hj : ∀ arr ∈ [["abcd".toList, "e".toList], ["a".toList, "bcde".toList]],
      arr.flatten = "abcde".toList := by decide
  obtain ⟨pieces, h1, _, _, h4⟩ := C45_union_of_boundaries "abcde".toList _ hj
  refine ⟨pieces, h1, ?_, ?_, ?_⟩
  · exact (h4 "a".toList "bcde".toList rfl (by decide) (by decide)).2
      ⟨["a".toList, "bcde".toList], by simp, ["a".toList], ["bcde".toList], rfl, rfl⟩
  · exact (h4 "abcd".toList "e".toList rfl (by decide) (by decide)).2
      ⟨["abcd".toList, "e".toList], by simp, ["abcd".toList], ["e".toList], rfl, rfl⟩
  · rw [h4 "ab".toList "cde".toList rfl (by decide) (by decide)]
    rintro ⟨arr, ha, hc⟩
    simp only [List.mem_cons, List.not_mem_nil, or_false] at ha
    rcases ha with rfl | rfl
    · rw [cutAfter_cons] at hc
      rcases hc with h | ⟨p, h, _⟩
      · simp at h
      · simp at h
    · rw [cutAfter_cons] at hc
      rcases hc with h | ⟨p, h, hc⟩
      · simp at h
      · simp only [String.reduceToList, List.cons_append, List.nil_append, List.cons.injEq, true_and] at h
        subst h
        rw [cutAfter_cons] at hc
        simp at hc

end Big.Words
