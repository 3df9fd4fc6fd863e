import Verif.Heap.FaultLemmas
import Verif.Heap.Props
/-!
# C115, C116: Heap when a comparison, or an iterable, raises

The specification is about bags: what the heap held before a call, what it holds after it, and `first`, the item
`heap[0]` before the call.
-/
namespace Big.Heap

variable {α σ ε : Type}

/-- What a call may do to what the heap holds: `Kept w first before op out after`. -/
inductive Kept (w : World σ ε α) (first : Option α) (before : List α) : FOp ε α → FOut ε α → List α → Prop
  /-- append: the item is in the heap -/
  | append (o after) : after.Perm (o :: before) → Kept w first before (.append o) .done after
  /-- append, and a comparison raised: the item is in the heap nevertheless -/
  | appendRaised (o e after) : after.Perm (o :: before) → Kept w first before (.append o) (.exn (.raised e)) after
  /-- extend: the items are in the heap -/
  | extend (items after) : after.Perm (items ++ before) → Kept w first before (.extend items none) .done after
  /-- extend, and a comparison raised: the items are in the heap nevertheless -/
  | extendRaised (items e after) : after.Perm (items ++ before) →
      Kept w first before (.extend items none) (.exn (.raised e)) after
  /-- extend, and the iterable raised: what it yielded before is in the heap -/
  | extendIterable (items e after) : after.Perm (items ++ before) →
      Kept w first before (.extend items (some e)) (.exn (.raised e)) after
  /-- remove: an item for which `item == o` was true is gone -/
  | remove (o v after s t) : w.eq v o s = (.ok true, t) → before.Perm (v :: after) →
      Kept w first before (.remove o) .done after
  /-- remove, and `<` raised: the item is gone nevertheless -/
  | removeRaised (o v e after s t) : w.eq v o s = (.ok true, t) → before.Perm (v :: after) →
      Kept w first before (.remove o) (.exn (.raised e)) after
  /-- remove, and `==` raised: nothing has changed -/
  | removeEq (o v e s t) : v ∈ before → w.eq v o s = (.error e, t) →
      Kept w first before (.remove o) (.exn (.raised e)) before
  /-- remove, and no item was found: nothing has changed -/
  | removeAbsent (o) : (∀ v ∈ before, ∃ s t, w.eq v o s = (.ok false, t)) →
      Kept w first before (.remove o) (.exn (.heap .valueError)) before
  /-- popleft: the first item is returned -/
  | popleft (v after) : first = some v → before.Perm (v :: after) → Kept w first before .popleft (.val v) after
  /-- popleft, and a comparison raised: the first item is lost -/
  | popleftRaised (v e after) : first = some v → before.Perm (v :: after) →
      Kept w first before .popleft (.exn (.raised e)) after
  | popleftEmpty : before = [] → Kept w first before .popleft (.exn (.heap .indexError)) []
  /-- append_and_popleft: the first item is returned and the new one kept, or the other way round -/
  | appendAndPopleft (o v after) : first = some v → (o :: before).Perm (v :: after) →
      Kept w first before (.appendAndPopleft o) (.val v) after
  | appendAndPopleftSame (o) : Kept w first before (.appendAndPopleft o) (.val o) before
  /-- append_and_popleft, and its first comparison raised: nothing has changed -/
  | appendAndPopleftFirst (o v e s t) : first = some v → w.lt v o s = (.error e, t) →
      Kept w first before (.appendAndPopleft o) (.exn (.raised e)) before
  /-- append_and_popleft, and a later comparison raised: the first item is lost and the new one is kept -/
  | appendAndPopleftRaised (o v e after) : first = some v → (o :: before).Perm (v :: after) →
      Kept w first before (.appendAndPopleft o) (.exn (.raised e)) after
  /-- popleft_and_append: the first item is returned, the new one kept -/
  | popleftAndAppend (o v after) : first = some v → (o :: before).Perm (v :: after) →
      Kept w first before (.popleftAndAppend o) (.val v) after
  /-- popleft_and_append, and a comparison raised: the first item is lost and the new one is kept -/
  | popleftAndAppendRaised (o v e after) : first = some v → (o :: before).Perm (v :: after) →
      Kept w first before (.popleftAndAppend o) (.exn (.raised e)) after
  | popleftAndAppendEmpty (o) : before = [] →
      Kept w first before (.popleftAndAppend o) (.exn (.heap .indexError)) []
  | clear : Kept w first before .clear .done []
  | peek (v) : first = some v → Kept w first before .peek (.val v) before
  | peekEmpty : before = [] → Kept w first before .peek (.exn (.heap .indexError)) before

theorem listRemoveF_spec (eq : Cmp σ ε α) (o : α) (l : List α) (s : σ) :
    (∃ v q s1 t1, eq v o s1 = (.ok true, t1) ∧ l.Perm (v :: q) ∧ (listRemoveF eq o l s).1 = .ok q) ∨
    (∃ v e s1 t1, v ∈ l ∧ eq v o s1 = (.error e, t1) ∧ (listRemoveF eq o l s).1 = .error (.raised e)) ∨
    ((∀ v ∈ l, ∃ s t, eq v o s = (.ok false, t)) ∧ (listRemoveF eq o l s).1 = .error (.heap .valueError)) := by
  induction l generalizing s with
  | nil => exact .inr (.inr ⟨by simp, rfl⟩)
  | cons a l ih =>
    unfold listRemoveF
    split
    · rename_i e t h
      exact .inr (.inl ⟨a, e, s, t, by simp, h, rfl⟩)
    · rename_i t h
      exact .inl ⟨a, l, s, t, h, .refl _, rfl⟩
    · rename_i t h
      rcases ih t with ⟨v, q, s1, t1, h1, h2, h3⟩ | ⟨v, e, s1, t1, h1, h2, h3⟩ | ⟨h1, h3⟩
      · refine .inl ⟨v, a :: q, s1, t1, h1, (h2.cons a).trans (.swap v a q), ?_⟩
        split
        · rename_i hh; rw [hh] at h3; cases h3
        · rename_i hh; rw [hh] at h3; cases h3; rfl
      · refine .inr (.inl ⟨v, e, s1, t1, by simp [h1], h2, ?_⟩)
        split
        · rename_i hh; rw [hh] at h3; cases h3; rfl
        · rename_i hh; rw [hh] at h3; cases h3
      · refine .inr (.inr ⟨?_, ?_⟩)
        · intro v hv
          rcases List.mem_cons.mp hv with rfl | hv
          · exact ⟨s, t, h⟩
          · exact h1 v hv
        · split
          · rename_i hh; rw [hh] at h3; cases h3; rfl
          · rename_i hh; rw [hh] at h3; cases h3

theorem heappopF_spec (lt : Cmp σ ε α) (l : List α) (s : σ) :
    (l = [] ∧ heappopF lt l s = ([], .error (.heap .indexError), s)) ∨
    (∃ v, l.head? = some v ∧ l.Perm (v :: (heappopF lt l s).1) ∧
      ((heappopF lt l s).2.1 = .ok v ∨ ∃ e, (heappopF lt l s).2.1 = .error (.raised e))) := by
  unfold heappopF
  cases h : l.getLast? with
  | none => rw [List.getLast?_eq_none_iff] at h; subst h; exact .inl ⟨rfl, rfl⟩
  | some a =>
    right
    have hl := getLast?_dropLast h
    dsimp only
    cases h2 : l.dropLast with
    | nil =>
      rw [h2] at hl
      subst hl
      exact ⟨a, rfl, .refl _, .inl rfl⟩
    | cons r rest =>
      rw [h2] at hl
      refine ⟨r, by rw [hl]; rfl, ?_, ?_⟩
      · have hp := siftupF_perm lt 0 (a :: rest) 0 s
        have hq : l.Perm (r :: a :: rest) := by
          rw [hl]; exact (List.perm_append_comm (l₁ := rest) (l₂ := [a])).cons r
        dsimp only
        split <;> rename_i hh <;> rw [hh] at hp <;> exact hq.trans (hp.symm.cons r)
      · dsimp only
        split
        · exact .inr ⟨_, rfl⟩
        · exact .inl rfl

theorem heapreplaceF_spec (lt : Cmp σ ε α) (v : α) (l : List α) (o : α) (s : σ) :
    (o :: v :: l).Perm (v :: (heapreplaceF lt (v :: l) o s).1) ∧
      ((heapreplaceF lt (v :: l) o s).2.1 = .ok v ∨ ∃ e, (heapreplaceF lt (v :: l) o s).2.1 = .error (.raised e)) := by
  have hp := siftupF_perm lt 0 (o :: l) 0 s
  unfold heapreplaceF
  dsimp only
  split <;> rename_i hh <;> rw [hh] at hp
  · exact ⟨(List.Perm.swap v o l).trans (hp.symm.cons v), .inr ⟨_, rfl⟩⟩
  · exact ⟨(List.Perm.swap v o l).trans (hp.symm.cons v), .inl rfl⟩

/-- **C115.** What a heap holds after a call, whatever the comparisons do: raise, answer at random, or change
their mind. No item is in the heap twice, and none is lost but, when popleft, popleft_and_append or
append_and_popleft raises in the middle, the item that was first; what append and extend were given stays in the
heap though they raise. There is no assumption about the heap or the comparisons, so this is true of each call of
each history. -/
theorem C115_what_is_left (w : World σ ε α) (h : Heap α) (s : σ) (op : FOp ε α) :
    Kept w h.queue.head? h.queue op (stepF w h s op).2.1 (stepF w h s op).1.queue := by
  cases op with
  | append o =>
    have hp := heappushF_perm w.lt h.queue o s
    simp only [stepF, finish]
    split <;> rename_i hh <;> rw [hh] at hp
    · exact .append _ _ hp
    · exact .appendRaised _ _ _ hp
  | extend items fail =>
    cases fail with
    | some e => exact .extendIterable _ _ _ List.perm_append_comm
    | none =>
      have hp := heapifyF_perm w.lt (w.order (h.queue ++ items).length) (h.queue ++ items) s
      simp only [stepF, finish]
      split <;> rename_i hh <;> rw [hh] at hp
      · exact .extend _ _ (hp.trans List.perm_append_comm)
      · exact .extendRaised _ _ _ (hp.trans List.perm_append_comm)
  | remove o =>
    simp only [stepF]
    rcases listRemoveF_spec w.eq o h.queue s with ⟨v, q, s1, t1, h1, h2, h3⟩ | ⟨v, e, s1, t1, h1, h2, h3⟩ | ⟨h1, h3⟩
    · split <;> rename_i hh <;> rw [hh] at h3
      · cases h3
      · cases h3
        rename_i s2
        have hp := heapifyF_perm w.lt (w.order q.length) q s2
        simp only [finish]
        split <;> rename_i hh2 <;> rw [hh2] at hp
        · exact .remove _ v _ s1 t1 h1 (h2.trans (hp.symm.cons v))
        · exact .removeRaised _ v _ _ s1 t1 h1 (h2.trans (hp.symm.cons v))
    · split <;> rename_i hh <;> rw [hh] at h3
      · cases h3; exact .removeEq _ v _ s1 t1 h1 h2
      · cases h3
    · split <;> rename_i hh <;> rw [hh] at h3
      · cases h3; exact .removeAbsent _ h1
      · cases h3
  | popleft =>
    simp only [stepF, finishVal]
    rcases heappopF_spec w.lt h.queue s with ⟨h1, h2⟩ | ⟨v, h1, h2, h3⟩
    · rw [h2]; exact .popleftEmpty h1
    · split <;> rename_i hh <;> rw [hh] at h2 h3
      · rcases h3 with h3 | ⟨e, h3⟩
        · cases h3; exact .popleft _ _ h1 h2
        · cases h3
      · rcases h3 with h3 | ⟨e, h3⟩
        · cases h3
        · cases h3; exact .popleftRaised v _ _ h1 h2
  | popleftAndAppend o =>
    simp only [stepF, finishVal]
    cases hq : h.queue with
    | nil => exact .popleftAndAppendEmpty _ rfl
    | cons v l =>
      obtain ⟨h2, h3⟩ := heapreplaceF_spec w.lt v l o s
      split <;> rename_i hh <;> rw [hh] at h2 h3
      · rcases h3 with h3 | ⟨e, h3⟩
        · cases h3; exact .popleftAndAppend _ _ _ rfl h2
        · cases h3
      · rcases h3 with h3 | ⟨e, h3⟩
        · cases h3
        · cases h3; exact .popleftAndAppendRaised _ v _ _ rfl h2
  | appendAndPopleft o =>
    simp only [stepF]
    cases hq : h.queue with
    | nil => exact .appendAndPopleftSame _
    | cons v l =>
      unfold heappushpopF
      dsimp only
      split
      · rename_i e t he
        exact .appendAndPopleftFirst o v e s t rfl he
      · exact .appendAndPopleftSame _
      · rename_i t he
        obtain ⟨h2, h3⟩ := heapreplaceF_spec w.lt v l o t
        simp only [finishVal]
        split <;> rename_i hh <;> rw [hh] at h2 h3
        · rcases h3 with h3 | ⟨e, h3⟩
          · cases h3; exact .appendAndPopleft _ _ _ rfl h2
          · cases h3
        · rcases h3 with h3 | ⟨e, h3⟩
          · cases h3
          · cases h3; exact .appendAndPopleftRaised _ v _ _ rfl h2
  | clear => exact .clear
  | peek =>
    simp only [stepF]
    cases hq : h.queue with
    | nil => dsimp only; rw [hq]; exact .peekEmpty rfl
    | cons v l => dsimp only; rw [hq]; exact .peek _ rfl

/-- A comparison that also writes down the exception it raises. -/
def watch (c : Cmp σ ε α) : Cmp (σ × Option ε) ε α := fun a b s =>
  match c a b s.1 with
  | (.error e, t) => (.error e, (t, some e))
  | (.ok x, t) => (.ok x, (t, s.2))

/-- The world in which the exceptions raised by comparisons are written down. -/
def World.watched (w : World σ ε α) : World (σ × Option ε) ε α := ⟨watch w.lt, watch w.eq, w.order⟩

theorem watch_spec (c : Cmp σ ε α) (a b : α) (s : σ × Option ε) (hs : s.2 = none) :
    (∃ e, (watch c a b s).1 = .error e ∧ (watch c a b s).2.2 = some e) ∨
    (∃ x, (watch c a b s).1 = .ok x ∧ (watch c a b s).2.2 = none) := by
  unfold watch
  split
  · exact .inl ⟨_, rfl, rfl⟩
  · exact .inr ⟨_, rfl, hs⟩

theorem siftdownF_watch (lt : Cmp σ ε α) (startpos : Nat) (heap : List α) (pos : Nat) (s : σ × Option ε)
    (hs : s.2 = none) :
    (siftdownF (watch lt) startpos heap pos s).2.2.2 = (siftdownF (watch lt) startpos heap pos s).2.1 := by
  fun_induction siftdownF (watch lt) startpos heap pos s with
  | case1 heap pos s h a b hb ha e t hlt =>
    have := watch_spec lt a b s hs
    rw [hlt] at this
    rcases this with ⟨_, h1, h2⟩ | ⟨_, h1, h2⟩
    · cases h1; exact h2
    · cases h1
  | case2 heap pos s h a b hb ha t hlt =>
    have := watch_spec lt a b s hs
    rw [hlt] at this
    rcases this with ⟨_, h1, h2⟩ | ⟨_, h1, h2⟩
    · cases h1
    · exact h2
  | case3 heap pos s h a b hb ha t hlt ih =>
    have := watch_spec lt a b s hs
    rw [hlt] at this
    rcases this with ⟨_, h1, h2⟩ | ⟨_, h1, h2⟩
    · cases h1
    · exact ih h2
  | case4 => exact hs
  | case5 => exact hs

theorem smallerChildF_watch (lt : Cmp σ ε α) (heap : List α) (c : Nat) (s : σ × Option ε) (hs : s.2 = none) :
    (∃ e, (smallerChildF (watch lt) heap c s).1 = .error e ∧ (smallerChildF (watch lt) heap c s).2.2 = some e) ∨
    (∃ x, (smallerChildF (watch lt) heap c s).1 = .ok x ∧ (smallerChildF (watch lt) heap c s).2.2 = none) := by
  unfold smallerChildF
  split
  · rename_i a b _ _
    have := watch_spec lt a b s hs
    split <;> rename_i hh <;> rw [hh] at this <;> rcases this with ⟨_, h1, h2⟩ | ⟨_, h1, h2⟩ <;> cases h1
    · exact .inl ⟨_, rfl, h2⟩
    · exact .inr ⟨_, rfl, h2⟩
    · exact .inr ⟨_, rfl, h2⟩
  · exact .inr ⟨_, rfl, hs⟩

theorem siftupF_watch (lt : Cmp σ ε α) (startpos : Nat) (heap : List α) (pos : Nat) (s : σ × Option ε)
    (hs : s.2 = none) :
    (siftupF (watch lt) startpos heap pos s).2.2.2 = (siftupF (watch lt) startpos heap pos s).2.1 := by
  fun_induction siftupF (watch lt) startpos heap pos s with
  | case1 heap pos s h e t hr =>
    have := smallerChildF_watch lt heap (2 * pos + 1) s hs
    rw [hr] at this
    rcases this with ⟨_, h1, h2⟩ | ⟨_, h1, h2⟩
    · cases h1; exact h2
    · cases h1
  | case2 heap pos s h c t hr a b hb ha ih =>
    have := smallerChildF_watch lt heap (2 * pos + 1) s hs
    rw [hr] at this
    rcases this with ⟨_, h1, h2⟩ | ⟨_, h1, h2⟩
    · cases h1
    · exact ih h2
  | case3 heap pos s h c t hr =>
    have := smallerChildF_watch lt heap (2 * pos + 1) s hs
    rw [hr] at this
    rcases this with ⟨_, h1, h2⟩ | ⟨_, h1, h2⟩
    · cases h1
    · exact h2
  | case4 heap pos s h => exact siftdownF_watch lt startpos heap pos s hs

theorem heapifyF_watch (lt : Cmp σ ε α) (is : List Nat) (heap : List α) (s : σ × Option ε) (hs : s.2 = none) :
    (heapifyF (watch lt) is heap s).2.2.2 = (heapifyF (watch lt) is heap s).2.1 := by
  induction is generalizing heap s with
  | nil => exact hs
  | cons i is ih =>
    have h1 := siftupF_watch lt i heap i s hs
    unfold heapifyF
    split
    · rename_i hh; rw [hh] at h1; exact h1
    · rename_i hh; rw [hh] at h1; exact ih _ _ h1

/-- The exception of an outcome that came from a comparison. -/
def FOut.raisedExn : FOut ε α → Option ε
  | .exn (.raised e) => some e
  | _ => none

/-- The exception of a result that came from a comparison. -/
def raisedOf {β : Type} : Except (Exn ε) β → Option ε
  | .error (.raised e) => some e
  | _ => none

theorem heapreplaceF_watch (lt : Cmp σ ε α) (heap : List α) (o : α) (s : σ × Option ε) (hs : s.2 = none) :
    (heapreplaceF (watch lt) heap o s).2.2.2 = raisedOf (heapreplaceF (watch lt) heap o s).2.1 := by
  unfold heapreplaceF
  split
  · exact hs
  · rename_i rest
    have h1 := siftupF_watch lt 0 (o :: rest) 0 s hs
    split <;> rename_i hh <;> rw [hh] at h1 <;> exact h1

theorem heappopF_watch (lt : Cmp σ ε α) (heap : List α) (s : σ × Option ε) (hs : s.2 = none) :
    (heappopF (watch lt) heap s).2.2.2 = raisedOf (heappopF (watch lt) heap s).2.1 := by
  unfold heappopF
  split
  · exact hs
  · rename_i last _
    split
    · exact hs
    · rename_i r rest _
      have h1 := siftupF_watch lt 0 (last :: rest) 0 s hs
      split <;> rename_i hh <;> rw [hh] at h1 <;> exact h1

theorem heappushpopF_watch (lt : Cmp σ ε α) (heap : List α) (o : α) (s : σ × Option ε) (hs : s.2 = none) :
    (heappushpopF (watch lt) heap o s).2.2.2 = raisedOf (heappushpopF (watch lt) heap o s).2.1 := by
  unfold heappushpopF
  split
  · exact hs
  · rename_i first rest
    have := watch_spec lt first o s hs
    split <;> rename_i hh <;> rw [hh] at this <;> rcases this with ⟨_, h1, h2⟩ | ⟨_, h1, h2⟩ <;> cases h1
    · exact h2
    · exact h2
    · exact heapreplaceF_watch lt _ _ _ h2

theorem listRemoveF_watch (eq : Cmp σ ε α) (o : α) (l : List α) (s : σ × Option ε) (hs : s.2 = none) :
    (listRemoveF (watch eq) o l s).2.2 = raisedOf (listRemoveF (watch eq) o l s).1 := by
  induction l generalizing s with
  | nil => exact hs
  | cons a l ih =>
    unfold listRemoveF
    have := watch_spec eq a o s hs
    split <;> rename_i hh <;> rw [hh] at this <;> rcases this with ⟨_, h1, h2⟩ | ⟨_, h1, h2⟩ <;> cases h1
    · exact h2
    · exact h2
    · have h3 := ih _ h2
      split <;> rename_i hh2 <;> rw [hh2] at h3
      · rename_i e _; cases e <;> exact h3
      · exact h3

theorem finish_watch (version : Nat) (r : List α × Option ε × (σ × Option ε)) (h : r.2.2.2 = r.2.1) :
    (finish version r).2.1.raisedExn = (finish version r).2.2.2 := by
  obtain ⟨q, e, s⟩ := r
  cases e <;> exact h.symm

theorem finishVal_watch (version : Nat) (r : Res (σ × Option ε) ε α α) (h : r.2.2.2 = raisedOf r.2.1) :
    (finishVal version r).2.1.raisedExn = (finishVal version r).2.2.2 := by
  obtain ⟨q, e, s⟩ := r
  rcases e with (e | e) | v <;> exact h.symm

/-- **C115.** A call raises the exception that a comparison raised, and no other one: if a comparison raises in a
call, the call raises that exception; if none does, the call raises none but Heap's own. (The exceptions of the
comparisons are written down; at the start of the call none is.) For extend, this is for an iterable that does
not raise. -/
theorem C115_raises (w : World σ ε α) (h : Heap α) (s : σ) (op : FOp ε α)
    (hop : ∀ items e, op ≠ .extend items (some e)) :
    (stepF w.watched h (s, none) op).2.1.raisedExn = (stepF w.watched h (s, none) op).2.2.2 := by
  cases op with
  | append o => exact finish_watch _ _ (siftdownF_watch w.lt _ _ _ _ rfl)
  | extend items fail =>
    cases fail with
    | none => exact finish_watch _ _ (heapifyF_watch w.lt _ _ _ rfl)
    | some e => exact absurd rfl (hop items e)
  | remove o =>
    have h1 := listRemoveF_watch w.eq o h.queue (s, none) rfl
    simp only [stepF, World.watched]
    split <;> rename_i hh <;> rw [hh] at h1
    · rename_i e _; cases e <;> exact h1.symm
    · exact finish_watch _ _ (heapifyF_watch w.lt _ _ _ h1)
  | popleft => exact finishVal_watch _ _ (heappopF_watch w.lt _ _ rfl)
  | appendAndPopleft o => exact finishVal_watch _ _ (heappushpopF_watch w.lt _ _ _ rfl)
  | popleftAndAppend o => exact finishVal_watch _ _ (heapreplaceF_watch w.lt _ _ _ rfl)
  | clear => rfl
  | peek => simp only [stepF]; split <;> rfl

/-- **C115.** A call that raises does not stop the iterators that exist; every other call but `heap[0]` does. -/
theorem C115_iterators (w : World σ ε α) (h : Heap α) (s : σ) (op : FOp ε α) :
    (stepF w h s op).1.version =
      match (stepF w h s op).2.1, op with
      | .exn _, _ => h.version
      | _, .peek => h.version
      | _, _ => h.version + 1 := by
  cases op with
  | append o => simp only [stepF, finish]; split <;> rfl
  | extend items fail =>
    cases fail with
    | none => simp only [stepF, finish]; split <;> rfl
    | some e => rfl
  | remove o =>
    simp only [stepF]
    split
    · rfl
    · simp only [finish]; split <;> rfl
  | popleft => simp only [stepF, finishVal]; split <;> rfl
  | appendAndPopleft o => simp only [stepF, finishVal]; split <;> rfl
  | popleftAndAppend o => simp only [stepF, finishVal]; split <;> rfl
  | clear => rfl
  | peek => simp only [stepF]; split <;> rfl

/-- **C115.** An iterator gives each item of its copy once; one whose comparison raised has lost the item that
would have been next, and goes on with the others. -/
theorem C115_next (lt : Cmp σ ε α) (it : HeapIter α) (h : Heap α) (s : σ) (hv : it.version = h.version) :
    (it.copy = [] ∧ it.nextF lt h s = (it, .error (.heap .stopIteration), s)) ∨
    ∃ v, it.copy.head? = some v ∧ it.copy.Perm (v :: (it.nextF lt h s).1.copy) ∧
      (it.nextF lt h s).1.version = h.version ∧
      ((it.nextF lt h s).2.1 = .ok v ∨ ∃ e, (it.nextF lt h s).2.1 = .error (.raised e)) := by
  unfold HeapIter.nextF
  rw [if_neg (by simpa using hv)]
  cases hc : it.copy with
  | nil => exact .inl ⟨rfl, by simp⟩
  | cons a l =>
    right
    simp only [List.isEmpty_cons, Bool.false_eq_true, if_false]
    rcases heappopF_spec lt (a :: l) s with ⟨h1, _⟩ | ⟨v, h1, h2, h3⟩
    · cases h1
    · exact ⟨v, h1, h2, hv, h3⟩

/-- **C115.** The order is repaired by `extend`, even with nothing: whatever happened to the heap before, after a
call of extend in which no comparison raised, and as long as none raises, the heap is a priority queue of what it
held and what it was given. (`run`, of the other model, is what calls do when no comparison raises.) -/
theorem C115_repair {lt : α → α → Bool} (eq : α → α → Bool) (w : StrictWeak lt) (h : Heap α) (i : List α)
    (ops : List (Op α)) :
    SpecRun lt eq (h.queue ++ i) ops (run lt eq (h.extend lt i) ops).2 (run lt eq (h.extend lt i) ops).1.queue :=
  run_refines eq w ops _ (heapify_heap w _) _ (heapify_perm lt _).symm

/-- **C115.** When no comparison raises, a history of calls is what the model for C01 to C04 says. -/
theorem C115_no_faults (lt eq : α → α → Bool) (h : Heap α) (s : σ) (ops : List (Op α)) :
    runF (pureWorld σ ε lt eq) h s (ops.map (Op.toF ε)) =
      ((run lt eq h ops).1, (run lt eq h ops).2.map (Out.toF ε), s) := by
  induction ops generalizing h with
  | nil => rfl
  | cons op ops ih =>
    simp only [List.map_cons, runF, stepF_pure, run, ih]

/-- **C115.** An iterator whose heap has been changed since raises RuntimeError, and loses nothing. -/
theorem C115_next_changed (lt : Cmp σ ε α) (it : HeapIter α) (h : Heap α) (s : σ) (hv : it.version ≠ h.version) :
    it.nextF lt h s = (it, .error (.heap .runtimeError), s) := by
  unfold HeapIter.nextF; rw [if_pos hv]

/-- **C115.** When no comparison raises, `next` of an iterator is what the model for C01 to C04 says. -/
theorem C115_next_no_faults (lt eq : α → α → Bool) (it : HeapIter α) (h : Heap α) (s : σ) :
    it.nextF (pureWorld σ ε lt eq).lt h s =
      match it.next lt h with
      | .ok (v, it') => (it', .ok v, s)
      | .error e => (it, .error (.heap e), s) := by
  unfold HeapIter.nextF HeapIter.next
  split
  · rfl
  · cases hc : it.copy with
    | nil => rfl
    | cons a l =>
      simp only [List.isEmpty_cons, Bool.false_eq_true, if_false]
      rw [show (pureWorld σ ε lt eq).lt = pureCmp ε lt from rfl, heappop_eq]
      have hit : it = ⟨a :: l, it.version⟩ := by cases it; cases hc; rfl
      cases heappop lt (a :: l) with
      | error e => exact Prod.ext hit.symm rfl
      | ok r => rfl

/-! ## C116: a call that raises leaves the heap as it was -/

/-- **C116**: an exception of Heap itself (IndexError, ValueError), and one raised by `==`
in remove, leave the heap exactly as it was. For exceptions raised by `<` or by the iterable given to
extend see `C116_contents_iff`. -/
theorem C116_unchanged (w : World σ ε α) (h : Heap α) (s : σ) (op : FOp ε α) (x : Exn ε)
    (hx : (stepF w h s op).2.1 = .exn x)
    (hwhy : (∃ e, x = .heap e) ∨ (∃ o e, op = .remove o ∧ (listRemoveF w.eq o h.queue s).1 = .error e)) :
    (stepF w h s op).1 = h := by
  rcases hwhy with ⟨e, rfl⟩ | ⟨o, e, rfl, he⟩
  · cases op with
    | append o =>
      simp only [stepF, finish] at hx
      split at hx <;> cases hx
    | extend items fail =>
      cases fail with
      | none =>
        simp only [stepF, finish] at hx
        split at hx <;> cases hx
      | some e => cases hx
    | remove o =>
      simp only [stepF] at hx ⊢
      split at hx
      · rfl
      · simp only [finish] at hx
        split at hx <;> cases hx
    | popleft =>
      have hk := C115_what_is_left w h s .popleft
      rw [hx] at hk
      have hv := C115_iterators w h s .popleft
      rw [hx] at hv
      generalize stepF w h s .popleft = r at hk hv
      obtain ⟨⟨q, v⟩, r2⟩ := r
      dsimp only at hk hv
      cases hk
      rename_i h1
      subst hv
      cases h; simp_all
    | popleftAndAppend o =>
      have hk := C115_what_is_left w h s (.popleftAndAppend o)
      rw [hx] at hk
      have hv := C115_iterators w h s (.popleftAndAppend o)
      rw [hx] at hv
      generalize stepF w h s (.popleftAndAppend o) = r at hk hv
      obtain ⟨⟨q, v⟩, r2⟩ := r
      dsimp only at hk hv
      cases hk
      rename_i h1
      subst hv
      cases h; simp_all
    | appendAndPopleft o =>
      have hk := C115_what_is_left w h s (.appendAndPopleft o)
      rw [hx] at hk
      cases hk
    | clear => cases hx
    | peek =>
      simp only [stepF]
      split <;> rfl
  · simp only [stepF] at hx ⊢
    split
    · rfl
    · rename_i hh; rw [hh] at he; cases he

/-- **C116** is false, and always in these cases: append and popleft that raise because of a comparison, and
extend that raises with anything in it, never leave what was in the heap. -/
theorem C116_changed (w : World σ ε α) (h : Heap α) (s : σ) (op : FOp ε α) (e : ε)
    (hx : (stepF w h s op).2.1 = .exn (.raised e))
    (hop : (∃ o, op = .append o) ∨ op = .popleft ∨ ∃ items fail, op = .extend items fail ∧ items ≠ []) :
    ¬ (stepF w h s op).1.queue.Perm h.queue := by
  have hk := C115_what_is_left w h s op
  rw [hx] at hk
  intro hp
  have hl := hp.length_eq
  rcases hop with ⟨o, rfl⟩ | rfl | ⟨items, fail, rfl, hi⟩
  · cases hk
    rename_i h1
    have := h1.length_eq
    simp only [List.length_cons] at this; omega
  · cases hk
    rename_i h1 h2
    have := h2.length_eq
    simp only [List.length_cons] at this; omega
  · have hpos : 0 < items.length := List.length_pos_iff.mpr hi
    cases hk
    · rename_i h1
      have := h1.length_eq
      simp only [List.length_append] at this; omega
    · rename_i h1
      have := h1.length_eq
      simp only [List.length_append] at this; omega

/-! ## Examples -/

/-- `<` of numbers that raises TypeError when its state is 0, and counts down. -/
def fragile : Cmp Nat String Nat := fun a b n => if n = 0 then (.error "TypeError", 0) else (.ok (natLt a b), n - 1)

/-- The world of `fragile`. -/
def fragileWorld : World Nat String Nat := ⟨fragile, pureCmp String (· == ·), plainOrder⟩

/-- An item that cannot be compared: append raises, but the item is in the heap. -/
example : (stepF fragileWorld ⟨[1, 3, 2], 0⟩ 0 (.append 0)).1.queue = [1, 3, 2, 0] := by decide +kernel

/-- popleft raises, and 1 is lost. -/
example : (stepF fragileWorld ⟨[1, 3, 2, 4], 0⟩ 0 .popleft).1.queue = [4, 3, 2] := by decide +kernel

/-- **C116**: after an append that raised, the heap is not a priority queue: it holds 0, and popleft gives 1
though no comparison raises any more. -/
theorem C116_counterexample_order_lost :
    let h := (stepF fragileWorld ⟨[1, 3, 2], 0⟩ 0 (.append 0)).1
    h.queue = [1, 3, 2, 0] ∧ (step natLt (· == ·) h .popleft).2 = .val 1 := by
  refine ⟨by decide +kernel, ?_⟩
  have hq : (stepF fragileWorld ⟨[1, 3, 2], 0⟩ 0 (.append 0)).1 = ⟨[1, 3, 2, 0], 0⟩ := by
    have h1 : (stepF fragileWorld ⟨[1, 3, 2], 0⟩ 0 (.append 0)).1.queue = [1, 3, 2, 0] := by decide +kernel
    have h2 : (stepF fragileWorld ⟨[1, 3, 2], 0⟩ 0 (.append 0)).1.version = 0 := by decide +kernel
    revert h1 h2
    generalize (stepF fragileWorld ⟨[1, 3, 2], 0⟩ 0 (.append 0)).1 = r
    intro h1 h2; cases r; dsimp only at h1 h2; rw [h1, h2]
  rw [hq]
  rfl

/-- `extend(())` puts that right. -/
example : (Heap.extend natLt ⟨[1, 3, 2, 0], 0⟩ []).queue.head? = some 0 := by decide +kernel

end Big.Heap
