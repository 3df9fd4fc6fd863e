import Verif.Heap.SliceModel
import Verif.Heap.Props
/-!
# C03: slices of a Heap, with any step
-/
namespace Big.Heap

variable {α : Type}

/-- The index of item `m` of a slice is an index of the list. -/
theorem slice_index_bounds (len : Nat) (start stop : Option Int) (k : Int) (hk : k ≠ 0) (m : Nat)
    (hm : m < sliceCount (sliceStart len k start) (sliceStop len k stop) k) :
    0 ≤ sliceStart len k start + m * k ∧ sliceStart len k start + m * k < len := by
  have hs : (k < 0 → -1 ≤ sliceStart len k start ∧ sliceStart len k start < len) ∧
      (0 < k → 0 ≤ sliceStart len k start ∧ sliceStart len k start ≤ len) := by
    unfold sliceStart adjust; split <;> grind
  have ht : (k < 0 → -1 ≤ sliceStop len k stop ∧ sliceStop len k stop < len) ∧
      (0 < k → 0 ≤ sliceStop len k stop ∧ sliceStop len k stop ≤ len) := by
    unfold sliceStop adjust; split <;> grind
  generalize sliceStart len k start = i at *
  generalize sliceStop len k stop = j at *
  unfold sliceCount at hm
  rcases Int.lt_or_gt_of_ne hk with hk | hk
  · rw [if_pos hk] at hm
    split at hm
    · have h1 : (m : Int) ≤ (i - j - 1) / (-k) := by omega
      have h2 : (m : Int) * (-k) ≤ i - j - 1 := (Int.le_ediv_iff_mul_le (by omega)).mp h1
      have h3 : (m : Int) * (-k) = -(m * k) := Int.mul_neg _ _
      have h4 : (0 : Int) ≤ m * (-k) := Int.mul_nonneg (by omega) (by omega)
      have := hs.1 hk; have := ht.1 hk
      omega
    · omega
  · rw [if_neg (by omega)] at hm
    split at hm
    · have h1 : (m : Int) ≤ (j - i - 1) / k := by omega
      have h2 : (m : Int) * k ≤ j - i - 1 := (Int.le_ediv_iff_mul_le (by omega)).mp h1
      have h4 : (0 : Int) ≤ m * k := Int.mul_nonneg (by omega) (by omega)
      have := hs.2 hk; have := ht.2 hk
      omega
    · omega

theorem filterMap_range_length (n : Nat) (f : Nat → Option α) (h : ∀ m, m < n → (f m).isSome) :
    ((List.range n).filterMap f).length = n := by
  induction n with
  | zero => rfl
  | succ n ih =>
    have := h n (by omega)
    obtain ⟨a, ha⟩ := Option.isSome_iff_exists.mp this
    simp [List.range_succ, List.filterMap_append, ih (fun m hm => h m (by omega)), ha]

theorem filterMap_range_getElem? (n : Nat) (f : Nat → Option α) (h : ∀ m, m < n → (f m).isSome) (i : Nat)
    (hi : i < n) : ((List.range n).filterMap f)[i]? = f i := by
  induction n with
  | zero => omega
  | succ n ih =>
    obtain ⟨a, ha⟩ := Option.isSome_iff_exists.mp (h n (by omega))
    have hl := filterMap_range_length n f (fun m hm => h m (by omega))
    rw [List.range_succ, List.filterMap_append]
    by_cases hin : i < n
    · rw [List.getElem?_append_left (by omega)]
      exact ih (fun m hm => h m (by omega)) hin
    · have : i = n := by omega
      subst this
      rw [List.getElem?_append_right (by omega), hl]
      simp [ha]

/-- The items of a slice: item `m` is the item of the list with the index `start + m * step`. -/
theorem pySliceStep_spec (l r : List α) (start stop step : Option Int)
    (h : pySliceStep l start stop step = .ok r) :
    r.length = sliceCount (sliceStart l.length (step.getD 1) start) (sliceStop l.length (step.getD 1) stop)
      (step.getD 1) ∧
    ∀ m, m < r.length → r[m]? = l[(sliceStart l.length (step.getD 1) start + m * step.getD 1).toNat]? := by
  unfold pySliceStep at h
  dsimp only at h
  split at h
  · exact absurd h (by simp)
  rename_i hk
  have hsome : ∀ m, m < sliceCount (sliceStart l.length (step.getD 1) start)
      (sliceStop l.length (step.getD 1) stop) (step.getD 1) →
      (l[(sliceStart l.length (step.getD 1) start + m * step.getD 1).toNat]?).isSome := by
    intro m hm
    have := slice_index_bounds l.length start stop (step.getD 1) hk m hm
    rw [List.getElem?_eq_getElem (by omega)]; rfl
  simp only [Except.ok.injEq] at h
  subst h
  refine ⟨filterMap_range_length _ _ hsome, fun m hm => ?_⟩
  rw [filterMap_range_length _ _ hsome] at hm
  exact filterMap_range_getElem? _ _ hsome m hm

theorem adjust_one (len : Nat) (b : Int) : adjust len 1 b = clampBound len b := by
  unfold adjust clampBound
  split
  · split <;> (try split) <;> omega
  · split <;> (try split) <;> omega

/-- Without a step, and with a step of 1, a slice is what `take` and `drop` give. -/
theorem pySliceStep_one (l : List α) (start stop : Option Int) (step : Option Int) (hstep : step.getD 1 = 1) :
    pySliceStep l start stop step = .ok (pySlice l start stop) := by
  generalize hr : pySliceStep l start stop step = r
  match r, hr with
  | .error e, hr =>
    unfold pySliceStep at hr; dsimp only at hr; rw [hstep, if_neg (by decide)] at hr; cases hr
  | .ok r, hr =>
    have hspec := pySliceStep_spec l r start stop step hr
    rw [hstep] at hspec
    congr 1
    have hs : sliceStart l.length 1 start = clampBound l.length (start.getD 0) := by
      cases start with
      | none => simp [sliceStart, clampBound]
      | some b => exact adjust_one l.length b
    have ht : sliceStop l.length 1 stop = clampBound l.length (stop.getD l.length) := by
      cases stop with
      | none => simp only [sliceStop, clampBound, Option.getD_none]; split <;> split <;> omega
      | some b => exact adjust_one l.length b
    have hs' : clampBound l.length (start.getD 0) ≤ l.length := by unfold clampBound; split <;> omega
    have ht' : clampBound l.length (stop.getD l.length) ≤ l.length := by unfold clampBound; split <;> omega
    rw [hs, ht] at hspec
    unfold pySlice
    dsimp only
    generalize clampBound l.length (start.getD 0) = i at *
    generalize clampBound l.length (stop.getD l.length) = j at *
    have hc : sliceCount (i : Int) (j : Int) 1 = j - i := by
      unfold sliceCount
      rw [if_neg (by decide)]
      split
      · rw [Int.ediv_one]; omega
      · omega
    have hl : r.length = j - i := by rw [hspec.1, hc]
    apply List.ext_getElem?
    intro m
    by_cases hm : m < r.length
    · rw [hspec.2 m hm, List.getElem?_drop, List.getElem?_take, if_pos (by omega)]
      congr 1; omega
    · rw [List.getElem?_eq_none (by omega), List.getElem?_eq_none (by simp; omega)]

/-- `l[::-1]` is the list in reverse. -/
theorem pySliceStep_reverse (l : List α) : pySliceStep l none none (some (-1)) = .ok l.reverse := by
  generalize hr : pySliceStep l none none (some (-1)) = r
  match r, hr with
  | .error e, hr => unfold pySliceStep at hr; simp at hr
  | .ok r, hr =>
    have hspec := pySliceStep_spec l r none none (some (-1)) hr
    simp only [Option.getD_some, sliceStart, sliceStop] at hspec
    rw [if_pos (by decide), if_pos (by decide)] at hspec
    have hl : r.length = l.length := by
      rw [hspec.1]; unfold sliceCount
      rw [if_pos (by decide)]
      split
      · rw [show (-(-1 : Int)) = 1 from rfl, Int.ediv_one]; omega
      · omega
    congr 1
    apply List.ext_getElem?
    intro m
    by_cases hm : m < r.length
    · rw [hspec.2 m hm, List.getElem?_reverse (by omega)]
      congr 1; omega
    · rw [List.getElem?_eq_none (by omega), List.getElem?_eq_none (by simp; omega)]

/-- Both raise the same exception, or both give lists that are equal up to equivalent values. -/
def SameSlices (lt : α → α → Bool) : Except Err (List α) → Except Err (List α) → Prop
  | .ok a, .ok b => SameLists lt a b
  | .error e, .error f => e = f
  | _, _ => False

/-- **C03.** For every heap and every slice, with any start, stop and step, the slice of the heap is the slice
of the sorted list, position by position up to equivalence; a step of zero raises ValueError for both. -/
theorem C03_slice_any_step {lt : α → α → Bool} (w : StrictWeak lt) (h : Heap α) (start stop step : Option Int) :
    SameSlices lt (h.getSliceStep lt start stop step) (pySliceStep (pysorted lt h.queue) start stop step) := by
  unfold Heap.getSliceStep
  split
  · rename_i hs
    have h1 : step.getD 1 = 1 := by rcases hs with hs | hs <;> rw [hs] <;> rfl
    rw [pySliceStep_one _ _ _ _ h1]
    exact C03_slice w h start stop
  · generalize pySliceStep (pysorted lt h.queue) start stop step = r
    cases r with
    | error e => rfl
    | ok r => exact ⟨rfl, fun i _ _ => ⟨w.irrefl _, w.irrefl _⟩⟩

/-- A step of zero, and only that, raises; the exception is ValueError. -/
theorem C03_raises_iff (lt : α → α → Bool) (h : Heap α) (start stop step : Option Int) (e : Err) :
    h.getSliceStep lt start stop step = .error e ↔ step = some 0 ∧ e = .valueError := by
  unfold Heap.getSliceStep pySliceStep
  dsimp only
  constructor
  · intro he
    split at he
    · cases he
    · split at he
      · rename_i h1
        cases step with
        | none => simp at h1
        | some k => simp at h1; subst h1; cases he; exact ⟨rfl, rfl⟩
      · cases he
  · rintro ⟨rfl, rfl⟩
    simp

/-- The hypotheses are met, and the result is not trivial. -/
example : (Heap.new natLt [5, 3, 8, 1, 9, 2]).queue.length = 6 := by decide +kernel
example : pySliceStep [1, 2, 3, 5, 8, 9] (some 4) none (some (-2)) = .ok [8, 3, 1] := rfl
example : pySliceStep [1, 2, 3, 5, 8, 9] (some (-100)) (some 100) (some 4) = .ok [1, 8] := rfl
example : pySliceStep [1, 2, 3, 5, 8, 9] none (some 1) (some (-1)) = .ok [9, 8, 5, 3] := rfl

end Big.Heap
