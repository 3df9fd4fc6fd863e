import Verif.Heap.Props
/-!
# Exactly when C03 holds for an index
-/
namespace Big.Heap
open List

variable {α : Type}

/-- What the code returns for -9 <= i <= -2 when the heap holds exactly -i values: the largest one. -/
theorem C86_boundary_index_value {lt : α → α → Bool} (w : StrictWeak lt) (h : Heap α) (i : Int)
    (h1 : -10 < i) (h2 : i < -1) (h3 : (h.queue.length : Int) = -i) :
    SameResult lt (h.getInt lt i) (pyIndex (pysorted lt h.queue) (-1)) := by
  have hp := pysorted_perm lt h.queue
  have hpr := pysortedRev_perm lt h.queue
  have hlen := hp.length_eq
  have hlenr := hpr.length_eq
  unfold Heap.getInt
  rw [if_neg (by omega), if_neg (by omega), if_neg (by omega), if_pos (by omega)]
  have hl : (nlargest lt (-i + 1) h.queue).length = h.queue.length := by
    unfold nlargest; rw [List.length_take]; omega
  rw [pyIndex_neg _ _ (by omega), pyIndex_neg _ _ (by omega), if_neg (by omega), if_neg (by omega)]
  have e1 : (i + ((nlargest lt (-i + 1) h.queue).length : Int)).toNat = 0 := by omega
  have e2 : (-1 + ((pysorted lt h.queue).length : Int)).toNat = h.queue.length - 1 := by omega
  rw [e1, e2]
  unfold nlargest
  rw [List.getElem?_take_of_lt (by omega), List.getElem?_eq_getElem (by omega),
    List.getElem?_eq_getElem (by omega)]
  have hu := sorted_unique w (pysortedRev_sorted w h.queue) (pysorted_sorted w h.queue)
    ((List.reverse_perm _).trans (hpr.trans hp.symm)) (h.queue.length - 1)
    (by simp; omega) (by omega)
  rw [List.getElem_reverse] at hu
  have e3 : (pysortedRev lt h.queue).length - 1 - (h.queue.length - 1) = 0 := by omega
  simp only [e3] at hu
  exact hu

theorem sameResult_symm {lt : α → α → Bool} {a b : Except Err α} (h : SameResult lt a b) : SameResult lt b a := by
  cases a <;> cases b <;> simp only [SameResult] at h ⊢
  · exact h.symm
  · exact ⟨h.2, h.1⟩

theorem sameResult_trans {lt : α → α → Bool} (w : StrictWeak lt) {a b c : Except Err α} (h : SameResult lt a b)
    (k : SameResult lt b c) : SameResult lt a c := by
  cases a <;> cases b <;> cases c <;> simp only [SameResult] at h k ⊢
  · exact h.trans k
  · exact ⟨w.nlt_trans k.1 h.1, w.nlt_trans h.2 k.2⟩

/-- No two values of the list are ties. -/
def NoTies (lt : α → α → Bool) (l : List α) : Prop := l.Pairwise (fun a b => lt a b = true ∨ lt b a = true)

/-- C86, exactly: on a heap without ties, indexing agrees with the sorted list, including IndexError, if and only if the
index is not negative, is -10 or less, is -1 on a heap that is not empty, is out of range (but not -1 on an empty heap),
or is -2 on a heap of at least three values. -/
theorem C86_index_iff {lt eq : α → α → Bool} (w : StrictWeak lt) (h : Heap α)
    (hr : Reachable lt eq h) (hd : NoTies lt h.queue) (i : Int) :
    SameResult lt (h.getInt lt i) (pyIndex (pysorted lt h.queue) i) ↔
      0 ≤ i ∨ i ≤ -10 ∨ (i = -1 ∧ h.queue ≠ []) ∨ (i ≠ -1 ∧ (h.queue.length : Int) < -i) ∨
      (i = -2 ∧ 2 < h.queue.length) := by
  have hp := pysorted_perm lt h.queue
  have hlen := hp.length_eq
  have hd' : NoTies lt (pysorted lt h.queue) :=
    hd.perm hp.symm (fun {a b} h => h.symm)
  have hdist : ∀ x y (hx : x < (pysorted lt h.queue).length) (hy : y < (pysorted lt h.queue).length), x ≠ y →
      ¬ Equivalent lt (pysorted lt h.queue)[x] (pysorted lt h.queue)[y] := by
    intro x y hx hy hne he
    rcases Nat.lt_or_gt_of_ne hne with hlt | hlt
    · have := List.pairwise_iff_getElem.1 hd' x y hx hy hlt
      rcases this with h | h
      · exact absurd he.1 (by rw [h]; decide)
      · exact absurd he.2 (by rw [h]; decide)
    · have := List.pairwise_iff_getElem.1 hd' y x hy hx hlt
      rcases this with h | h
      · exact absurd he.2 (by rw [h]; decide)
      · exact absurd he.1 (by rw [h]; decide)
  constructor
  · intro hsame
    by_cases hi : 0 ≤ i ∨ i ≤ -10 ∨ (i = -1 ∧ h.queue ≠ []) ∨ (i ≠ -1 ∧ (h.queue.length : Int) < -i)
    · rcases hi with hi | hi | hi | hi
      · exact .inl hi
      · exact .inr (.inl hi)
      · exact .inr (.inr (.inl hi))
      · exact .inr (.inr (.inr (.inl hi)))
    · simp only [not_or, not_and] at hi
      obtain ⟨i1, i2, i3, i4⟩ := hi
      by_cases hm : i = -1
      · have hq : h.queue = [] := by
          by_cases hq : h.queue = []
          · exact hq
          · exact absurd (i3 hm) (by simpa using hq)
        exfalso
        subst hm
        unfold Heap.getInt at hsame
        rw [if_neg (by omega), if_pos (by omega), hq] at hsame
        revert hsame
        simp [SameResult, pysorted, pyIndex, pymax]
      · have hle := i4 hm
        right; right; right; right
        rcases Int.lt_or_eq_of_le (show -i ≤ (h.queue.length : Int) by omega) with hlt | heq
        · have hv := C86_negative_index_value w h i (by omega) (by omega) hlt
          have ht := sameResult_trans w (sameResult_symm hsame) hv
          rw [pyIndex_neg _ _ (by omega), pyIndex_neg _ _ (by omega), if_neg (by omega), if_neg (by omega),
            List.getElem?_eq_getElem (by omega), List.getElem?_eq_getElem (by omega)] at ht
          by_cases h2 : i = -2
          · exact ⟨h2, by omega⟩
          · exact absurd ht (hdist _ _ (by omega) (by omega) (by omega))
        · have hv := C86_boundary_index_value w h i (by omega) (by omega) heq.symm
          have ht := sameResult_trans w (sameResult_symm hsame) hv
          rw [pyIndex_neg _ _ (by omega), pyIndex_neg _ _ (by omega), if_neg (by omega), if_neg (by omega),
            List.getElem?_eq_getElem (by omega), List.getElem?_eq_getElem (by omega)] at ht
          exact absurd ht (hdist _ _ (by omega) (by omega) (by omega))
  · rintro (hi | hi | hi | hi | ⟨rfl, hi⟩)
    · exact C86_index w h hr i (.inl hi)
    · exact C86_index w h hr i (.inr (.inl hi))
    · exact C86_index w h hr i (.inr (.inr (.inl hi)))
    · exact C86_index w h hr i (.inr (.inr (.inr hi)))
    · exact C86_negative_index_value w h (-2) (by omega) (by omega) (by omega)

example : ∃ h : Heap Nat, Reachable natLt (· == ·) h ∧ NoTies natLt h.queue ∧ h.queue.length = 3 :=
  ⟨Heap.new natLt [3, 1, 2], .new _, by unfold NoTies; decide +kernel, by decide +kernel⟩

end Big.Heap
