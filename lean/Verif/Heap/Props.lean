import Verif.Heap.Lemmas2
/-
Properties C01-C04 of big.heap.Heap.

Specification side (this file): a priority queue is a bag of values, written as a list read up to
permutation.  `SpecStep` says what each call may return and what bag it leaves, with no mention of
array positions, sifting or heap shape.
-/
namespace Big.Heap
variable {α : Type}

/-- `v` is a least element of the bag `c`. -/
def IsLeast (lt : α → α → Bool) (v : α) (c : List α) : Prop := v ∈ c ∧ ∀ x ∈ c, lt x v = false

/-- Specification of one call on a bag: `SpecStep c op out c'`. -/
inductive SpecStep (lt eq : α → α → Bool) : List α → Op α → Out α → List α → Prop
  | append (c o) : SpecStep lt eq c (.append o) .none (o :: c)
  | extend (c i) : SpecStep lt eq c (.extend i) .none (i ++ c)
  | clear (c) : SpecStep lt eq c .clear .none []
  | remove (c o v c') : eq v o = true → c.Perm (v :: c') → SpecStep lt eq c (.remove o) .none c'
  | removeAbsent (c o) : (∀ v ∈ c, eq v o = false) →
      SpecStep lt eq c (.remove o) (.err .valueError) c
  | popleft (c v c') : IsLeast lt v c → c.Perm (v :: c') → SpecStep lt eq c .popleft (.val v) c'
  | popleftEmpty : SpecStep lt eq [] .popleft (.err .indexError) []
  | appendAndPopleft (c o v c') : IsLeast lt v (o :: c) → (o :: c).Perm (v :: c') →
      SpecStep lt eq c (.appendAndPopleft o) (.val v) c'
  | popleftAndAppend (c o v d) : IsLeast lt v c → c.Perm (v :: d) →
      SpecStep lt eq c (.popleftAndAppend o) (.val v) (o :: d)
  | popleftAndAppendEmpty (o) : SpecStep lt eq [] (.popleftAndAppend o) (.err .indexError) []
  | peek (c v) : IsLeast lt v c → SpecStep lt eq c .peek (.val v) c
  | peekEmpty : SpecStep lt eq [] .peek (.err .indexError) []

/-- Specification of a history; bags may be rearranged freely between calls. -/
inductive SpecRun (lt eq : α → α → Bool) : List α → List (Op α) → List (Out α) → List α → Prop
  | nil {c c'} : c.Perm c' → SpecRun lt eq c [] [] c'
  | cons {c c1 op out c2 ops outs c'} : c.Perm c1 → SpecStep lt eq c1 op out c2 →
      SpecRun lt eq c2 ops outs c' → SpecRun lt eq c (op :: ops) (out :: outs) c'

theorem step_refines {lt : α → α → Bool} (eq : α → α → Bool) (w : StrictWeak lt) (h : Heap α)
    (hh : IsHeapFrom lt 0 h.queue) (op : Op α) :
    ∃ c', SpecStep lt eq h.queue op (step lt eq h op).2 c' ∧ c'.Perm (step lt eq h op).1.queue := by
  cases op with
  | append o => exact ⟨_, .append _ o, (heappush_perm lt h.queue o).symm⟩
  | extend i => exact ⟨_, .extend _ i, List.perm_append_comm.trans (heapify_perm lt _).symm⟩
  | clear => exact ⟨_, .clear _, .refl _⟩
  | remove o =>
    rcases remove_cases lt eq h o with ⟨v, q, h1, h2, he⟩ | ⟨h1, he⟩ <;> simp only [step, he]
    · exact ⟨_, .remove _ o v q h1 h2, (heapify_perm lt q).symm⟩
    · exact ⟨_, .removeAbsent _ o h1, .refl _⟩
  | popleft =>
    cases hq : h.queue with
    | nil =>
      simp only [step, Heap.popleft, hq, heappop_nil]
      exact ⟨_, .popleftEmpty, .refl _⟩
    | cons a l =>
      obtain ⟨v, q, h1, h2, _, h4, _⟩ := heappop_spec w h.queue hh (by simp [hq])
      simp only [step, Heap.popleft, h1]
      rw [← hq]
      exact ⟨q, .popleft _ v q ⟨h2.symm.subset List.mem_cons_self, h4⟩ h2, .refl _⟩
  | appendAndPopleft o =>
    obtain ⟨h1, _, h3⟩ := heappushpop_spec w h.queue o hh
    exact ⟨_, .appendAndPopleft _ o _ _ ⟨h1.symm.subset List.mem_cons_self, h3⟩ h1, .refl _⟩
  | popleftAndAppend o =>
    cases hq : h.queue with
    | nil =>
      simp only [step, Heap.popleftAndAppend, hq, heapreplace]
      exact ⟨_, .popleftAndAppendEmpty o, .refl _⟩
    | cons a l =>
      obtain ⟨q, h1, h2, _, h4⟩ := heapreplace_spec w a l o (hq ▸ hh)
      simp only [step, Heap.popleftAndAppend, hq, h1]
      exact ⟨_, .popleftAndAppend _ o a l ⟨List.mem_cons_self, h4⟩ (.refl _), h2.symm⟩
  | peek =>
    simp only [step, getInt_zero]
    cases hq : h.queue with
    | nil =>
      simp only [hq]
      exact ⟨_, .peekEmpty, .refl _⟩
    | cons a l =>
      simp only [hq]
      exact ⟨_, .peek _ a ⟨List.mem_cons_self, head_min w a l (hq ▸ hh)⟩, .refl _⟩

theorem run_refines {lt : α → α → Bool} (eq : α → α → Bool) (w : StrictWeak lt)
    (ops : List (Op α)) (h : Heap α) (hh : IsHeapFrom lt 0 h.queue) (c : List α)
    (hc : c.Perm h.queue) :
    SpecRun lt eq c ops (run lt eq h ops).2 (run lt eq h ops).1.queue := by
  induction ops generalizing h c with
  | nil => exact .nil hc
  | cons op ops ih =>
    obtain ⟨c', h1, h2⟩ := step_refines eq w h hh op
    exact .cons hc h1 (ih _ (step_heap eq w h op hh) c' h2)

/-- **C01.** Every history of calls on a Heap built from the values `i` is a history of the
priority-queue specification started with the bag `i`: same results, same exceptions, and the
final contents are a permutation of the specification's bag. -/
theorem C01_heap_is_priority_queue {lt : α → α → Bool} (eq : α → α → Bool) (w : StrictWeak lt)
    (i : List α) (ops : List (Op α)) :
    SpecRun lt eq i ops (run lt eq (Heap.new lt i) ops).2 (run lt eq (Heap.new lt i) ops).1.queue :=
  run_refines eq w ops _ (new_heap w i).1 i (new_heap w i).2.symm

/-- **C01**, continued from any reachable heap, in particular from a copy: a copy behaves as a
priority queue holding what the original held. -/
theorem C01_copy_is_priority_queue {lt : α → α → Bool} (eq : α → α → Bool) (w : StrictWeak lt)
    (h : Heap α) (hr : Reachable lt eq h) (ops : List (Op α)) :
    SpecRun lt eq h.queue ops (run lt eq h.copy ops).2 (run lt eq h.copy ops).1.queue :=
  run_refines eq w ops h.copy (Reachable.isHeap (eq := eq) (h := h) w hr) _ (.refl _)

/-- **C01**, the error half spelled out: a call that raises leaves the heap as it was, and popleft,
heap[0] and popleft_and_append raise exactly when the heap is empty. -/
theorem C01_errors_leave_heap_unchanged {lt : α → α → Bool} (eq : α → α → Bool) (w : StrictWeak lt)
    (h : Heap α) (hr : Reachable lt eq h) (op : Op α) :
    (∀ e, (step lt eq h op).2 = .err e → (step lt eq h op).1 = h) ∧
    ((step lt eq h .popleft).2 = .err .indexError ↔ h.queue = []) ∧
    ((step lt eq h .peek).2 = .err .indexError ↔ h.queue = []) ∧
    (∀ o, (step lt eq h (.popleftAndAppend o)).2 = .err .indexError ↔ h.queue = []) ∧
    (∀ o, (step lt eq h (.remove o)).2 = .err .valueError ↔ ∀ v ∈ h.queue, eq v o = false) := by
  have hh := Reachable.isHeap w hr
  refine ⟨?_, ?_, ?_, ?_, ?_⟩
  · intro e he
    cases op <;> simp only [step] at he ⊢
    · cases he
    · cases he
    · split at he
      · cases he
      · rfl
    · split at he
      · cases he
      · rfl
    · cases he
    · split at he
      · cases he
      · rfl
    · cases he
    · split <;> rfl
  · cases hq : h.queue with
    | nil => simp [step, Heap.popleft, hq, heappop_nil]
    | cons a l =>
      obtain ⟨v, q, h1, _⟩ := heappop_spec w h.queue hh (by simp [hq])
      simp [step, Heap.popleft, h1]
  · simp only [step, getInt_zero]
    cases hq : h.queue <;> simp
  · intro o
    cases hq : h.queue with
    | nil => simp [step, Heap.popleftAndAppend, hq, heapreplace]
    | cons a l => simp [step, Heap.popleftAndAppend, hq, heapreplace]
  · intro o
    rcases remove_cases lt eq h o with ⟨v, q, h1, h2, he⟩ | ⟨h1, he⟩ <;> simp only [step, he]
    · constructor
      · intro h; cases h
      · intro hall
        have := hall v (h2.symm.subset List.mem_cons_self)
        simp [h1] at this
    · simpa using h1

/-- **C02.** A `for` loop over an unmodified reachable heap ends with StopIteration having yielded
exactly the heap's values, in non-decreasing order. (The heap itself is not an output: the loop
works on the iterator's own copy.) -/
theorem C02_iteration_sorted {lt eq : α → α → Bool} (w : StrictWeak lt)
    (h : Heap α) (hr : Reachable lt eq h) :
    (h.iter.forLoop lt h).2 = .stopIteration ∧ (h.iter.forLoop lt h).1.Perm h.queue ∧
      NonDecreasing lt (h.iter.forLoop lt h).1 :=
  forLoop_spec w h _ h.iter rfl rfl (Reachable.isHeap w hr)

/-- **C02.** The `queue` property is a sorted permutation of the contents. -/
theorem C02_queue_sorted {lt : α → α → Bool} (w : StrictWeak lt) (h : Heap α) :
    (h.sortedQueue lt).Perm h.queue ∧ NonDecreasing lt (h.sortedQueue lt) :=
  ⟨pysorted_perm lt _, pysorted_sorted w _⟩

/-- **C02.** An iterator that was valid for `h` raises RuntimeError after any later history that
contains a successful mutation, wherever the mutation is in the history. -/
theorem C02_iterator_invalidated (lt eq : α → α → Bool) (h : Heap α) (it : HeapIter α)
    (hv : it.version = h.version) (before : List (Op α)) (op : Op α) (after : List (Op α))
    (h1 : op ≠ .peek) (h2 : ∀ e, (step lt eq (run lt eq h before).1 op).2 ≠ .err e) :
    it.next lt (run lt eq (run lt eq h before).1 (op :: after)).1 = .error .runtimeError := by
  have a := run_version_le lt eq before h
  have b := step_version_lt lt eq (run lt eq h before).1 op h1 h2
  have c := run_version_le lt eq after (step lt eq (run lt eq h before).1 op).1
  have : it.version ≠ (run lt eq (run lt eq h before).1 (op :: after)).1.version := by
    simp only [run]; omega
  simp [HeapIter.next, this]

/-- **C02**: `__next__` keeps an iterator's version, so the previous theorem covers partly consumed
iterators too. -/
theorem C02_next_keeps_version (lt : α → α → Bool) (h : Heap α) (it it' : HeapIter α) (v : α)
    (hn : it.next lt h = .ok (v, it')) : it'.version = h.version := by
  unfold HeapIter.next at hn
  split at hn
  · cases hn
  · rename_i hv
    split at hn
    · cases hn
    · split at hn
      · cases hn
      · cases hn; simpa using hv

/-- Same outcome, up to replacing a value by an equivalent one. -/
def SameResult (lt : α → α → Bool) : Except Err α → Except Err α → Prop
  | .ok a, .ok b => Equivalent lt a b
  | .error e, .error e' => e = e'
  | _, _ => False

theorem pyIndex_nonneg (l : List α) (i : Int) (h : 0 ≤ i) :
    pyIndex l i = match l[i.toNat]? with | some v => .ok v | none => .error .indexError := by
  unfold pyIndex
  simp only [show ¬ i < 0 by omega, if_false]
  cases l[i.toNat]? <;> rfl

theorem pyIndex_neg (l : List α) (i : Int) (h : i < 0) :
    pyIndex l i = if i + l.length < 0 then .error .indexError
      else match l[(i + l.length).toNat]? with | some v => .ok v | none => .error .indexError := by
  unfold pyIndex
  simp only [h, if_true]
  cases l[(i + (l.length : Int)).toNat]? <;> rfl

theorem sameResult_refl {lt : α → α → Bool} (w : StrictWeak lt) (r : Except Err α) :
    SameResult lt r r := by
  cases r with
  | ok a => exact ⟨w.irrefl a, w.irrefl a⟩
  | error e => rfl

theorem last_equiv {lt : α → α → Bool} (w : StrictWeak lt) (l : List α) (m : α) (hm : m ∈ l)
    (hmax : ∀ x ∈ l, lt m x = false) :
    SameResult lt (.ok m) (pyIndex (pysorted lt l) (-1)) := by
  have hp := pysorted_perm lt l
  have hlen := hp.length_eq
  have hpos : 0 < l.length := List.length_pos_of_mem hm
  have hs := pysorted_sorted w l
  rw [pyIndex_neg _ _ (by omega), if_neg (by omega)]
  have he : (-1 + ((pysorted lt l).length : Int)).toNat = l.length - 1 := by omega
  rw [he]
  have hlt : l.length - 1 < (pysorted lt l).length := by omega
  rw [List.getElem?_eq_getElem hlt]
  refine ⟨hmax _ (hp.subset (List.getElem_mem _)), ?_⟩
  obtain ⟨k, hk, hkm⟩ := List.getElem_of_mem (hp.symm.subset hm)
  rw [← hkm]
  exact sorted_get_le w hs (show k ≤ l.length - 1 by omega) hlt

/-- **C86.** Indexing agrees with the sorted list, including IndexError, for every
index except: -1 on an empty heap (ValueError instead of IndexError) and -9..-2 on heaps long
enough for the index to be valid, where the code is wrong (see `C86_negative_index_wrong`,
`C86_negative_index_value`).  The hypothesis `hi` is needed: see `C86_index_iff`. -/
theorem C86_index {lt eq : α → α → Bool} (w : StrictWeak lt) (h : Heap α)
    (hr : Reachable lt eq h) (i : Int)
    (hi : 0 ≤ i ∨ i ≤ -10 ∨ (i = -1 ∧ h.queue ≠ []) ∨ (i ≠ -1 ∧ (h.queue.length : Int) < -i)) :
    SameResult lt (h.getInt lt i) (pyIndex (pysorted lt h.queue) i) := by
  have hp := pysorted_perm lt h.queue
  have hlen := hp.length_eq
  have hs := pysorted_sorted w h.queue
  unfold Heap.getInt
  by_cases h0 : i = 0
  · subst h0
    rw [if_pos rfl, pyIndex_nonneg _ _ (by omega), pyIndex_nonneg _ _ (by omega)]
    cases hq : h.queue with
    | nil => simp [pysorted, SameResult]
    | cons a l =>
      have hlt : 0 < (pysorted lt (a :: l)).length := by
        rw [← hq, hlen, hq]; simp
      simp only [Int.toNat_zero, List.getElem?_cons_zero]
      rw [List.getElem?_eq_getElem hlt]
      have hm := head_min w a l (hq ▸ Reachable.isHeap w hr)
      rw [hq] at hp hs
      refine ⟨?_, hm _ (hp.subset (List.getElem_mem _))⟩
      obtain ⟨k, hk, hkm⟩ := List.getElem_of_mem (hp.symm.subset (List.mem_cons_self (a := a) (l := l)))
      have := sorted_get_le w hs (show 0 ≤ k by omega) hk
      rwa [hkm] at this
  · rw [if_neg h0]
    by_cases h1 : i = -1
    · subst h1
      rw [if_pos rfl]
      have hne : h.queue ≠ [] := by
        rcases hi with hi | hi | hi | hi
        · omega
        · omega
        · exact hi.2
        · exact absurd rfl hi.1
      cases hq : h.queue with
      | nil => exact absurd hq hne
      | cons a l =>
        obtain ⟨m1, m2⟩ := foldl_max_spec w l a
        exact last_equiv w (a :: l) _ m1 m2
    · rw [if_neg h1]
      by_cases h2 : 0 < i ∧ i < 10
      · rw [if_pos h2, pyIndex_nonneg _ _ (by omega), pyIndex_nonneg _ _ (by omega)]
        unfold nsmallest
        rw [List.getElem?_take_of_lt (by omega)]
        exact sameResult_refl w _
      · rw [if_neg h2]
        by_cases h3 : -10 < i ∧ i < 0
        · rw [if_pos h3]
          have hlt : (h.queue.length : Int) < -i := by omega
          have e1 : pyIndex (nlargest lt (-i + 1) h.queue) i = .error .indexError := by
            have : (nlargest lt (-i + 1) h.queue).length ≤ h.queue.length := by
              unfold nlargest
              rw [List.length_take, (pysortedRev_perm lt h.queue).length_eq]
              omega
            rw [pyIndex_neg _ _ (by omega), if_pos (by omega)]
          have e2 : pyIndex (pysorted lt h.queue) i = .error .indexError := by
            rw [pyIndex_neg _ _ (by omega), if_pos (by omega)]
          rw [e1, e2]; rfl
        · rw [if_neg h3]; exact sameResult_refl w _

/-- For values on which `<` is a linear order, `SameResult` is equality. -/
theorem sameResult_eq {lt : α → α → Bool} (ht : ∀ a b, lt a b = false → lt b a = false → a = b)
    {r r' : Except Err α} (h : SameResult lt r r') : r = r' := by
  cases r <;> cases r' <;> simp only [SameResult] at h
  · rw [h]
  · rw [ht _ _ h.1 h.2]

/-- **C86 (finding).** What the code really returns for -9 <= i <= -2 when the heap holds more than
-i values: the second largest value, whatever i is. -/
theorem C86_negative_index_value {lt : α → α → Bool} (w : StrictWeak lt) (h : Heap α) (i : Int)
    (h1 : -10 < i) (h2 : i < -1) (h3 : -i < (h.queue.length : Int)) :
    SameResult lt (h.getInt lt i) (pyIndex (pysorted lt h.queue) (-2)) := by
  have hp := pysorted_perm lt h.queue
  have hpr := pysortedRev_perm lt h.queue
  have hlen := hp.length_eq
  have hlenr := hpr.length_eq
  unfold Heap.getInt
  rw [if_neg (by omega), if_neg (by omega), if_neg (by omega), if_pos (by omega)]
  have hl : (nlargest lt (-i + 1) h.queue).length = (-i+1).toNat := by
    unfold nlargest; rw [List.length_take]; omega
  rw [pyIndex_neg _ _ (by omega), pyIndex_neg _ _ (by omega), if_neg (by omega), if_neg (by omega)]
  have e1 : (i + ((nlargest lt (-i + 1) h.queue).length : Int)).toNat = 1 := by omega
  have e2 : (-2 + ((pysorted lt h.queue).length : Int)).toNat = h.queue.length - 2 := by omega
  rw [e1, e2]
  unfold nlargest
  rw [List.getElem?_take_of_lt (by omega), List.getElem?_eq_getElem (by omega),
    List.getElem?_eq_getElem (by omega)]
  have hu := sorted_unique w (pysortedRev_sorted w h.queue) (pysorted_sorted w h.queue)
    ((List.reverse_perm _).trans (hpr.trans hp.symm)) (h.queue.length - 2)
    (by simp; omega) (by omega)
  rw [List.getElem_reverse] at hu
  have e3 : (pysortedRev lt h.queue).length - 1 - (h.queue.length - 2) = 1 := by omega
  simp only [e3] at hu
  exact hu

/-- The numbers with their usual order, used in examples. -/
def natLt (a b : Nat) : Bool := decide (a < b)

theorem natLt_strictWeak : StrictWeak natLt :=
  ⟨by intro a b; simp [natLt]; omega, by intro a b c; simp [natLt]; omega⟩

/-- **C86 (finding).** The full property is false: `Heap([1,2,3,4])[-3]` is not 2. -/
theorem C86_negative_index_wrong :
    ∃ h : Heap Nat, Reachable natLt (· == ·) h ∧
      ¬ SameResult natLt (h.getInt natLt (-3)) (pyIndex (pysorted natLt h.queue) (-3)) := by
  refine ⟨Heap.new natLt [1, 2, 3, 4], .new _, ?_⟩
  have := C86_negative_index_value natLt_strictWeak (Heap.new natLt [1, 2, 3, 4]) (-3)
    (by omega) (by omega) (by rw [(new_heap natLt_strictWeak _).2.length_eq]; decide)
  intro hbad
  have e := sameResult_eq (lt := natLt) (by intro a b; simp [natLt]; omega) this
  have e' := sameResult_eq (lt := natLt) (by intro a b; simp [natLt]; omega) hbad
  rw [e] at e'
  have hperm := (new_heap natLt_strictWeak [1,2,3,4]).2
  have hsort : pysorted natLt (Heap.new natLt [1, 2, 3, 4]).queue = [1,2,3,4] := by
    apply List.ext_getElem
    · rw [(pysorted_perm _ _).length_eq, hperm.length_eq]
    · intro n h1 h2
      have := sorted_unique natLt_strictWeak
        (pysorted_sorted natLt_strictWeak (Heap.new natLt [1, 2, 3, 4]).queue)
        (l2 := [1,2,3,4]) (by simp [NonDecreasing, natLt])
        ((pysorted_perm _ _).trans hperm) n h1 h2
      simp only [Equivalent, natLt, decide_eq_false_iff_not] at this
      omega
  rw [hsort] at e'
  revert e'; simp [pyIndex]

/-- Equal lists up to replacing values by equivalent ones. -/
def SameLists (lt : α → α → Bool) (l1 l2 : List α) : Prop :=
  l1.length = l2.length ∧ ∀ i (h1 : i < l1.length) (h2 : i < l2.length), Equivalent lt l1[i] l2[i]

/-- **C03.** Slicing with step None (or 1) agrees with slicing the sorted list, position by
position up to equivalence, for all start and stop. -/
theorem C03_slice {lt : α → α → Bool} (w : StrictWeak lt) (h : Heap α) (start stop : Option Int) :
    SameLists lt (h.getSlice lt start stop)
      (pySlice (pysorted lt h.queue) start stop) := by
  have hp := pysorted_perm lt h.queue
  have hpr := pysortedRev_perm lt h.queue
  have hlen := hp.length_eq
  have hlenr := hpr.length_eq
  have hrefl : ∀ l : List α, SameLists lt l l :=
    fun l => ⟨rfl, fun i _ _ => ⟨w.irrefl _, w.irrefl _⟩⟩
  unfold Heap.getSlice
  simp only
  generalize hs0 : start.getD 0 = s
  generalize ht0 : stop.getD (h.queue.length : Int) = t
  by_cases h1 : (if s < 0 then s + (h.queue.length : Int) else s) = 0
  · rw [if_pos h1]
    have : nsmallest lt (if t < 0 then t + (h.queue.length : Int) else t) h.queue
        = pySlice (pysorted lt h.queue) start stop := by
      unfold nsmallest pySlice
      simp only [hlen, hs0, ht0]
      have c1 : clampBound h.queue.length s = 0 := by
        unfold clampBound; split at h1 <;> simp_all
      rw [c1, List.drop_zero]
      unfold clampBound
      split
      · rfl
      · by_cases hle : t.toNat ≤ h.queue.length
        · rw [Nat.min_eq_left hle]
        · rw [Nat.min_eq_right (by omega), List.take_of_length_le (by omega),
            List.take_of_length_le (by omega)]
    rw [this]; exact hrefl _
  · rw [if_neg h1]
    by_cases h2 : (if t < 0 then t + (h.queue.length : Int) else t) = (h.queue.length : Int)
    · rw [if_pos h2]
      have ht : t = h.queue.length := by split at h2 <;> omega
      unfold nlargest pySlice
      simp only [hlen, hs0, ht0]
      have c1 : clampBound h.queue.length t = h.queue.length := by
        subst ht; unfold clampBound; rw [if_neg (by omega)]; omega
      rw [c1, List.take_of_length_le (l := pysorted lt h.queue) (by omega)]
      generalize hn : (h.queue.length : Int) - (if s < 0 then s + (h.queue.length : Int) else s) = n
      have c2 : n.toNat = h.queue.length - clampBound h.queue.length s ∨
          (h.queue.length ≤ n.toNat ∧ clampBound h.queue.length s = 0) := by
        unfold clampBound
        split at hn
        · rename_i hs; rw [if_pos hs]; omega
        · rename_i hs; rw [if_neg hs]; omega
      have c3 : clampBound h.queue.length s ≤ h.queue.length := by
        unfold clampBound; split <;> omega
      have hrev : ((pysortedRev lt h.queue).take n.toNat).reverse
          = (pysortedRev lt h.queue).reverse.drop (clampBound h.queue.length s) := by
        rcases c2 with c2 | ⟨c2, c2'⟩
        · rw [List.reverse_take, hlenr]
          congr 1; omega
        · rw [c2', List.drop_zero, List.take_of_length_le (by omega)]
      rw [hrev]
      generalize clampBound h.queue.length s = k at *
      constructor
      · simp; omega
      · intro i h1 h2
        simp only [List.getElem_drop]
        exact sorted_unique w (pysortedRev_sorted w h.queue) (pysorted_sorted w h.queue)
          ((List.reverse_perm _).trans (hpr.trans hp.symm)) (k + i)
          (by simp at h1 ⊢; omega) (by simp at h2; omega)
    · rw [if_neg h2]; exact hrefl _

/-- **C04.** `append_and_popleft(x)` against `append(x)` then `popleft()`: the latter succeeds, the
values returned are equivalent, and in both cases exactly the returned value left the bag
`x + contents`. -/
theorem C04_append_and_popleft {lt eq : α → α → Bool} (w : StrictWeak lt) (h : Heap α)
    (hr : Reachable lt eq h) (x : α) :
    ∃ v h2, (h.append lt x).popleft lt = .ok (v, h2) ∧
      Equivalent lt (h.appendAndPopleft lt x).1 v ∧
      (x :: h.queue).Perm (v :: h2.queue) ∧
      (x :: h.queue).Perm ((h.appendAndPopleft lt x).1 :: (h.appendAndPopleft lt x).2.queue) := by
  have hh := Reachable.isHeap w hr
  obtain ⟨p1, _, p3⟩ := heappushpop_spec w h.queue x hh
  have pp := heappush_perm lt h.queue x
  obtain ⟨v, q, h1, h2, _, h4, _⟩ := heappop_spec w (heappush lt h.queue x)
    (heappush_heap w _ _ hh) (by intro h; rw [h] at pp; simpa using pp.length_eq)
  refine ⟨v, ⟨q, h.version + 1 + 1⟩, ?_, ⟨?_, ?_⟩, pp.symm.trans h2, p1⟩
  · simp [Heap.popleft, Heap.append, h1]
  · exact h4 _ (pp.symm.subset (p1.symm.subset List.mem_cons_self))
  · exact p3 _ (pp.subset (h2.symm.subset List.mem_cons_self))

/-- **C04**, for linearly ordered values: same result and same multiset. -/
theorem C04_append_and_popleft_eq {lt eq : α → α → Bool} (w : StrictWeak lt)
    (ht : ∀ a b, lt a b = false → lt b a = false → a = b) (h : Heap α)
    (hr : Reachable lt eq h) (x : α) :
    ∃ h2, (h.append lt x).popleft lt = .ok ((h.appendAndPopleft lt x).1, h2) ∧
      h2.queue.Perm (h.appendAndPopleft lt x).2.queue := by
  obtain ⟨v, h2, e1, e2, e3, e4⟩ := C04_append_and_popleft w h hr x
  have := ht _ _ e2.1 e2.2
  subst this
  exact ⟨h2, e1, (List.perm_cons _).1 (e3.symm.trans e4)⟩

/-- **C04.** `popleft_and_append(x)` returns what `popleft()` returns and leaves what
`popleft(); append(x)` leaves; both raise IndexError together. -/
theorem C04_popleft_and_append {lt eq : α → α → Bool} (w : StrictWeak lt) (h : Heap α)
    (hr : Reachable lt eq h) (x : α) :
    (∃ v h1 h2, h.popleft lt = .ok (v, h1) ∧ h.popleftAndAppend lt x = .ok (v, h2) ∧
      h2.queue.Perm (h1.append lt x).queue) ∨
    (h.popleft lt = .error .indexError ∧ h.popleftAndAppend lt x = .error .indexError) := by
  have hh := Reachable.isHeap w hr
  cases hq : h.queue with
  | nil => right; simp [Heap.popleft, Heap.popleftAndAppend, hq, heapreplace, heappop_nil]
  | cons a l =>
    left
    obtain ⟨v, q, h1, h2, _, h4, h5⟩ := heappop_spec w h.queue hh (by simp [hq])
    obtain ⟨q', r1, r2, _, r4⟩ := heapreplace_spec w a l x (hq ▸ hh)
    rw [hq] at h5 h2
    simp at h5
    subst h5
    refine ⟨a, ⟨q, h.version + 1⟩, ⟨q', h.version + 1⟩, by simp [Heap.popleft, h1],
      by simp [Heap.popleftAndAppend, hq, r1], ?_⟩
    have : l.Perm q := (List.perm_cons a).1 h2
    exact r2.trans ((List.Perm.cons x this).trans (heappush_perm lt q x).symm)

/-! ### The hypotheses are met by concrete cases -/

example : StrictWeak natLt := natLt_strictWeak
example : Reachable natLt (· == ·)
    (step natLt (· == ·) (Heap.new natLt [5, 1, 4, 1, 3]) (.append 2)).1 := .step _ (.new _)
/-- events ordered by a key only, so distinct values can be equivalent -/
example : StrictWeak (fun (a b : Nat × Nat) => decide (a.1 < b.1)) :=
  ⟨by intro a b; simp; omega, by intro a b c; simp; omega⟩
example : (Heap.new natLt [5, 1, 4]).queue.length = 3 :=
  (new_heap natLt_strictWeak [5, 1, 4]).2.length_eq
/-- C02_iterator_invalidated's hypotheses: append is a successful mutation. -/
example : ∀ e, (step natLt (· == ·) (run natLt (· == ·) (Heap.new natLt [2, 1]) []).1 (.append 7)).2
    ≠ .err e := by simp [step]

end Big.Heap
