import Verif.Heap.Lemmas
/- Helper lemmas: sorting, uniqueness of sorted lists up to equivalence, iteration. -/
namespace Big.Heap
variable {α : Type}

/-- Non-decreasing with respect to `<`: no later element is smaller than an earlier one. -/
def NonDecreasing (lt : α → α → Bool) (l : List α) : Prop := l.Pairwise (fun a b => lt b a = false)

/-- Neither is smaller than the other (the equality a strict weak order induces). -/
def Equivalent (lt : α → α → Bool) (a b : α) : Prop := lt a b = false ∧ lt b a = false

theorem pysorted_perm (lt : α → α → Bool) (l : List α) : (pysorted lt l).Perm l :=
  List.mergeSort_perm _ _

theorem pysorted_sorted {lt : α → α → Bool} (w : StrictWeak lt) (l : List α) :
    NonDecreasing lt (pysorted lt l) := by
  have := List.pairwise_mergeSort (le := fun a b => !lt b a)
    (by intro a b c h1 h2; simp at *; exact w.nlt_trans h1 h2)
    (by intro a b; simp; cases h : lt b a with
        | false => simp
        | true => simp [w.asymm _ _ h]) l
  exact this.imp (by simp)

theorem pysortedRev_perm (lt : α → α → Bool) (l : List α) : (pysortedRev lt l).Perm l :=
  List.mergeSort_perm _ _

theorem pysortedRev_sorted {lt : α → α → Bool} (w : StrictWeak lt) (l : List α) :
    NonDecreasing lt (pysortedRev lt l).reverse := by
  have := List.pairwise_mergeSort (le := fun a b => !lt a b)
    (by intro a b c h1 h2; simp at *; exact w.nlt_trans h2 h1)
    (by intro a b; simp; cases h : lt a b with
        | false => simp
        | true => simp [w.asymm _ _ h]) l
  unfold NonDecreasing
  rw [List.pairwise_reverse]
  exact this.imp (by simp)

theorem sorted_get_le {lt : α → α → Bool} (w : StrictWeak lt) {l : List α}
    (h : NonDecreasing lt l) {i j : Nat} (hij : i ≤ j) (hj : j < l.length) :
    lt l[j] (l[i]'(by omega)) = false := by
  rcases Nat.lt_or_eq_of_le hij with h1 | rfl
  · exact List.pairwise_iff_getElem.1 h i j (by omega) hj h1
  · exact w.irrefl _

theorem sorted_unique_aux {lt : α → α → Bool} (w : StrictWeak lt) {l1 l2 : List α}
    (h1 : NonDecreasing lt l1) (h2 : NonDecreasing lt l2) (i : Nat)
    (hi1 : i < l1.length) (hi2 : i < l2.length)
    (hc : l1.countP (fun x => !lt l1[i] x) = l2.countP (fun x => !lt l1[i] x)) :
    lt l1[i] l2[i] = false := by
  cases hlt : lt l1[i] l2[i] with
  | false => rfl
  | true =>
    exfalso
    let p : α → Bool := fun x => !lt l1[i] x
    have hc : l1.countP p = l2.countP p := hc
    have e1 : i + 1 ≤ l1.countP p := by
      have : l1.countP p = (l1.take (i+1)).countP p + (l1.drop (i+1)).countP p := by
        rw [← List.countP_append, List.take_append_drop]
      have ht : (l1.take (i+1)).countP p = (l1.take (i+1)).length := by
        rw [List.countP_eq_length]
        intro x hx
        obtain ⟨k, hk, rfl⟩ := List.getElem_of_mem hx
        simp at hk
        simp only [List.getElem_take, p]
        simp [sorted_get_le w h1 (show k ≤ i by omega) hi1]
      simp at ht; omega
    have e2 : l2.countP p ≤ i := by
      have : l2.countP p = (l2.take i).countP p + (l2.drop i).countP p := by
        rw [← List.countP_append, List.take_append_drop]
      have hd : (l2.drop i).countP p = 0 := by
        rw [List.countP_eq_zero]
        intro x hx
        obtain ⟨k, hk, rfl⟩ := List.getElem_of_mem hx
        simp at hk
        simp only [List.getElem_drop, p]
        have := sorted_get_le w h2 (show i ≤ i + k by omega) (by omega)
        simp
        rcases w.negtrans _ l2[i+k] _ hlt with h | h
        · exact h
        · simp_all
      have := List.countP_le_length (p := p) (l := l2.take i)
      simp at this; omega
    omega

/-- Two sorted arrangements of the same multiset agree position by position, up to equivalence. -/
theorem sorted_unique {lt : α → α → Bool} (w : StrictWeak lt) {l1 l2 : List α}
    (h1 : NonDecreasing lt l1) (h2 : NonDecreasing lt l2) (hp : l1.Perm l2) (i : Nat)
    (hi1 : i < l1.length) (hi2 : i < l2.length) : Equivalent lt l1[i] l2[i] :=
  ⟨sorted_unique_aux w h1 h2 i hi1 hi2 (hp.countP_eq _),
    sorted_unique_aux w h2 h1 i hi2 hi1 (hp.symm.countP_eq _)⟩

theorem heappop_length {lt : α → α → Bool} {l q : List α} {v : α}
    (h : heappop lt l = .ok (v, q)) : q.length < l.length := by
  unfold heappop at h
  split at h
  · cases h
  · rename_i x hx
    have hne : l ≠ [] := by rintro rfl; simp at hx
    have : 0 < l.length := List.length_pos_iff.2 hne
    split at h
    · cases h; simpa using this
    · rename_i r rest hd
      cases h
      have := congrArg List.length hd
      simp at this
      simp [siftup_length]; omega

/-- A `for x in it:` loop over a HeapIterator while the heap stays `h`: the values seen and the
exception that ended it (heap.py:160-165). -/
def HeapIter.forLoop (lt : α → α → Bool) (it : HeapIter α) (h : Heap α) : List α × Err :=
  match hn : it.next lt h with
  | .error e => ([], e)
  | .ok (v, it') => let r := it'.forLoop lt h; (v :: r.1, r.2)
termination_by it.copy.length
decreasing_by
  unfold HeapIter.next at hn
  split at hn
  · cases hn
  · split at hn
    · cases hn
    · split at hn
      · cases hn
      · rename_i hq
        cases hn
        exact heappop_length (by assumption)

theorem forLoop_spec {lt : α → α → Bool} (w : StrictWeak lt) (h : Heap α) (n : Nat) :
    ∀ (it : HeapIter α), it.copy.length = n → it.version = h.version → IsHeapFrom lt 0 it.copy →
    (it.forLoop lt h).2 = .stopIteration ∧ (it.forLoop lt h).1.Perm it.copy ∧
      NonDecreasing lt (it.forLoop lt h).1 := by
  induction n using Nat.strongRecOn with
  | _ n ih =>
    intro it hn hv hh
    cases hc : it.copy with
    | nil =>
      have hnext : it.next lt h = .error .stopIteration := by
        simp [HeapIter.next, hv, hc]
      rw [HeapIter.forLoop]
      split
      · rename_i e he; rw [hnext] at he; cases he
        simp [NonDecreasing]
      · rename_i he; rw [hnext] at he; cases he
    | cons a l =>
      obtain ⟨v, q, h1, h2, h3, h4, _⟩ := heappop_spec w it.copy hh (by simp [hc])
      have hnext : it.next lt h = .ok (v, ⟨q, it.version⟩) := by
        simp only [HeapIter.next, hv]
        simp only [ne_eq, not_true_eq_false, if_false]
        split
        · rename_i h; simp [hc] at h
        · rw [h1]
      rw [HeapIter.forLoop]
      split
      · rename_i e he; rw [hnext] at he; cases he
      · rename_i v' it' he; rw [hnext] at he; cases he
        obtain ⟨i1, i2, i3⟩ := ih q.length (hn ▸ heappop_length h1) ⟨q, it.version⟩ rfl hv h3
        refine ⟨i1, ?_, ?_⟩
        · rw [← hc]
          exact (List.Perm.cons _ i2).trans h2.symm
        · refine List.Pairwise.cons ?_ i3
          intro x hx
          exact h4 x (h2.symm.subset (List.mem_cons_of_mem _ (i2.subset hx)))

/-- Heaps a program can hold: constructed, obtained by copy, or after any API call. -/
inductive Reachable (lt eq : α → α → Bool) : Heap α → Prop
  | new (i : List α) : Reachable lt eq (Heap.new lt i)
  | copy {h} : Reachable lt eq h → Reachable lt eq h.copy
  | step {h} (op : Op α) : Reachable lt eq h → Reachable lt eq (step lt eq h op).1

theorem new_heap {lt : α → α → Bool} (w : StrictWeak lt) (i : List α) :
    IsHeapFrom lt 0 (Heap.new lt i).queue ∧ (Heap.new lt i).queue.Perm i := by
  cases i with
  | nil => exact ⟨fun j hj => by simp [Heap.new] at hj, .refl _⟩
  | cons a l => exact ⟨heapify_heap w _, heapify_perm lt _⟩

theorem remove_cases (lt eq : α → α → Bool) (h : Heap α) (o : α) :
    (∃ v q, eq v o = true ∧ h.queue.Perm (v :: q) ∧
      h.remove lt eq o = .ok ⟨heapify lt q, h.version + 1⟩) ∨
    ((∀ v ∈ h.queue, eq v o = false) ∧ h.remove lt eq o = .error .valueError) := by
  unfold Heap.remove listRemove
  by_cases ha : h.queue.any (fun x => eq x o) = true
  · left
    simp only [ha, if_true]
    obtain ⟨v, hv, hvo⟩ := List.any_eq_true.1 ha
    obtain ⟨w, l1, l2, _, h2, h3, h4⟩ := List.exists_of_eraseP hv (p := fun x => eq x o) hvo
    refine ⟨w, l1 ++ l2, h2, ?_, ?_⟩
    · rw [h3]; exact List.perm_middle
    · rw [h4]
  · right
    have ha' : ∀ v ∈ h.queue, eq v o = false := by
      intro v hv
      cases hv' : eq v o with
      | false => rfl
      | true => exact absurd (List.any_eq_true.2 ⟨v, hv, hv'⟩) ha
    simp only [ha]
    exact ⟨ha', rfl⟩

theorem getInt_zero (lt : α → α → Bool) (h : Heap α) :
    h.getInt lt 0 = match h.queue with | [] => .error .indexError | a :: _ => .ok a := by
  cases hq : h.queue <;> simp [Heap.getInt, pyIndex, hq]

theorem step_heap {lt : α → α → Bool} (eq : α → α → Bool) (w : StrictWeak lt) (h : Heap α)
    (op : Op α) (hh : IsHeapFrom lt 0 h.queue) : IsHeapFrom lt 0 (step lt eq h op).1.queue := by
  cases op with
  | append o => exact heappush_heap w _ _ hh
  | extend i => exact heapify_heap w _
  | clear => intro j hj; simp [step, Heap.clear] at hj
  | remove o =>
    rcases remove_cases lt eq h o with ⟨v, q, _, _, he⟩ | ⟨_, he⟩ <;> simp only [step, he]
    · exact heapify_heap w _
    · exact hh
  | popleft =>
    cases hq : h.queue with
    | nil => simpa [step, Heap.popleft, hq, heappop_nil] using hq ▸ hh
    | cons a l =>
      obtain ⟨v, q, h1, _, h3, _⟩ := heappop_spec w h.queue hh (by simp [hq])
      simpa [step, Heap.popleft, h1] using h3
  | appendAndPopleft o => exact (heappushpop_spec w h.queue o hh).2.1
  | popleftAndAppend o =>
    cases hq : h.queue with
    | nil => simpa [step, Heap.popleftAndAppend, hq, heapreplace] using hq ▸ hh
    | cons a l =>
      obtain ⟨q, h1, _, h3, _⟩ := heapreplace_spec w a l o (hq ▸ hh)
      simpa [step, Heap.popleftAndAppend, hq, h1] using h3
  | peek =>
    simp only [step]
    split <;> exact hh

theorem Reachable.isHeap {lt eq : α → α → Bool} (w : StrictWeak lt) {h : Heap α}
    (hr : Reachable lt eq h) : IsHeapFrom lt 0 h.queue := by
  induction hr with
  | new i => exact (new_heap w i).1
  | copy _ ih => exact ih
  | step op _ ih => exact step_heap eq w _ op ih

theorem step_version_le (lt eq : α → α → Bool) (h : Heap α) (op : Op α) :
    h.version ≤ (step lt eq h op).1.version := by
  cases op <;> simp only [step, Heap.append, Heap.extend, Heap.clear, Heap.appendAndPopleft] <;>
    (try omega)
  · split
    · rename_i heq; unfold Heap.remove at heq; split at heq <;> cases heq; simp
    · simp
  · split
    · rename_i heq; unfold Heap.popleft at heq; split at heq <;> cases heq; simp
    · simp
  · split
    · rename_i heq; unfold Heap.popleftAndAppend at heq; split at heq <;> cases heq; simp
    · simp
  · split <;> simp

theorem run_version_le (lt eq : α → α → Bool) (ops : List (Op α)) (h : Heap α) :
    h.version ≤ (run lt eq h ops).1.version := by
  induction ops generalizing h with
  | nil => simp [run]
  | cons op ops ih => exact Nat.le_trans (step_version_le lt eq h op) (ih _)

theorem step_version_lt (lt eq : α → α → Bool) (h : Heap α) (op : Op α)
    (h1 : op ≠ .peek) (h2 : ∀ e, (step lt eq h op).2 ≠ .err e) :
    h.version < (step lt eq h op).1.version := by
  cases op <;> simp only [step, Heap.append, Heap.extend, Heap.clear, Heap.appendAndPopleft] at * <;>
    (try omega)
  · split at *
    · rename_i heq; unfold Heap.remove at heq; split at heq <;> cases heq; simp
    · simp at h2
  · split at *
    · rename_i heq; unfold Heap.popleft at heq; split at heq <;> cases heq; simp
    · simp at h2
  · split at *
    · rename_i heq; unfold Heap.popleftAndAppend at heq; split at heq <;> cases heq; simp
    · simp at h2
  · exact absurd rfl h1

theorem foldl_max_spec {lt : α → α → Bool} (w : StrictWeak lt) (l : List α) (a : α) :
    (l.foldl (fun m x => if lt m x then x else m) a) ∈ a :: l ∧
    ∀ x ∈ a :: l, lt (l.foldl (fun m x => if lt m x then x else m) a) x = false := by
  induction l generalizing a with
  | nil => simpa using w.irrefl a
  | cons b l ih =>
    simp only [List.foldl_cons]
    cases hab : lt a b with
    | true =>
      obtain ⟨i1, i2⟩ := ih b
      simp only [if_true]
      refine ⟨List.mem_cons_of_mem _ i1, ?_⟩
      intro x hx
      rcases List.mem_cons.1 hx with rfl | hx
      · exact w.nlt_trans (w.asymm _ _ hab) (i2 b List.mem_cons_self)
      · exact i2 x hx
    | false =>
      obtain ⟨i1, i2⟩ := ih a
      simp only [Bool.false_eq_true, if_false]
      constructor
      · rcases List.mem_cons.1 i1 with h | h
        · rw [h]; simp
        · simp [h]
      · intro x hx
        rcases List.mem_cons.1 hx with rfl | hx
        · exact i2 _ List.mem_cons_self
        · rcases List.mem_cons.1 hx with rfl | hx
          · exact w.nlt_trans hab (i2 a List.mem_cons_self)
          · exact i2 x (List.mem_cons_of_mem _ hx)

end Big.Heap
