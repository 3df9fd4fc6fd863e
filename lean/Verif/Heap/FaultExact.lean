import Verif.Heap.Fault
/-!
# C116, exactly: which calls that raise leave the contents of the heap as they were
-/
namespace Big.Heap
variable {α σ ε : Type}

/-- The calls that raise and leave in the heap what was in it: those that raise an exception of Heap itself, remove if `==`
raised, extend if the iterable yielded nothing, append_and_popleft if its first comparison raised, and
append_and_popleft and popleft_and_append if the new item is the first item of the heap. -/
inductive Harmless (w : World σ ε α) (h : Heap α) (s : σ) : FOp ε α → Exn ε → Prop
  | own (op e) : Harmless w h s op (.heap e)
  | remove (o e x) : (listRemoveF w.eq o h.queue s).1 = .error e → Harmless w h s (.remove o) x
  | extend (fail x) : Harmless w h s (.extend [] fail) x
  | firstComparison (o v e x) : h.queue.head? = some v → (w.lt v o s).1 = .error e → Harmless w h s (.appendAndPopleft o) x
  | sameItem (o x) : h.queue.head? = some o → Harmless w h s (.appendAndPopleft o) x
  | sameItem' (o x) : h.queue.head? = some o → Harmless w h s (.popleftAndAppend o) x

theorem perm_swap_iff {o v : α} {a b : List α} (h : (o :: b).Perm (v :: a)) : a.Perm b ↔ o = v := by
  constructor
  · intro hp
    have h2 : (o :: b).Perm (v :: b) := h.trans (hp.cons v)
    classical
    have := h2.count_eq o
    simp only [List.count_cons] at this
    by_cases e : o = v
    · exact e
    · have e' : (v == o) = false := by simpa using fun h => e h.symm
      simp [e'] at this
  · rintro rfl
    exact ((List.perm_cons o).1 h).symm

/-- **C116**, exactly: a call that raises leaves in the heap what was in it if and only if it is one of the harmless ones.
There is no assumption about the heap or the comparisons. -/
theorem C116_contents_iff (w : World σ ε α) (h : Heap α) (s : σ) (op : FOp ε α) (x : Exn ε)
    (hx : (stepF w h s op).2.1 = .exn x) :
    (stepF w h s op).1.queue.Perm h.queue ↔ Harmless w h s op x := by
  constructor
  · intro hp
    have hk := C115_what_is_left w h s op
    rw [hx] at hk
    have hl := hp.length_eq
    cases x with
    | heap e => exact .own _ _
    | raised e =>
      cases op with
      | append o =>
        cases hk
        rename_i h1
        have := h1.length_eq
        simp only [List.length_cons] at this; omega
      | extend items fail =>
        have : items = [] := by
          cases hk <;> (rename_i h1; have := h1.length_eq; simp only [List.length_append] at this
                        exact List.eq_nil_of_length_eq_zero (by omega))
        subst this
        exact .extend _ _
      | remove o =>
        cases hr : (listRemoveF w.eq o h.queue s).1 with
        | error e => exact .remove _ _ _ hr
        | ok q =>
          exfalso
          rcases listRemoveF_spec w.eq o h.queue s with ⟨v, q', s1, t1, h1, h2, h3⟩ | ⟨v, e, s1, t1, h1, h2, h3⟩ | ⟨h1, h3⟩
          · simp only [stepF] at hl
            rw [h3] at hr
            cases hr
            split at hl
            · rename_i hh; rw [hh] at h3; cases h3
            · rename_i q2 s2 hh
              rw [hh] at h3
              cases h3
              have hp' := heapifyF_perm w.lt (w.order q.length) q s2
              have hq := h2.length_eq
              have hq' := hp'.length_eq
              simp only [finish] at hl
              split at hl <;> rename_i hh <;> rw [hh] at hq' <;> simp only [List.length_cons] at hq hl <;> simp only at hq' <;> omega
          · rw [h3] at hr; cases hr
          · rw [h3] at hr; cases hr
      | popleft =>
        cases hk
        rename_i h1 h2
        have := h2.length_eq
        simp only [List.length_cons] at this; omega
      | popleftAndAppend o =>
        cases hk
        rename_i v h1 h2
        exact .sameItem' _ _ (by rw [h1, (perm_swap_iff h2).1 hp])
      | appendAndPopleft o =>
        cases hq : h.queue with
        | nil => simp [stepF, hq, heappushpopF, finishVal] at hx
        | cons v l =>
          cases hc : (w.lt v o s).1 with
          | error e' => exact .firstComparison o v e' _ (by rw [hq]; rfl) hc
          | ok b =>
            refine .sameItem _ _ ?_
            rw [hq]
            obtain ⟨t, hpair⟩ : ∃ t, w.lt v o s = (.ok b, t) := ⟨(w.lt v o s).2, by rw [← hc]⟩
            cases b with
            | false => simp [stepF, hq, heappushpopF, finishVal, hpair] at hx
            | true =>
              simp only [stepF, hq, heappushpopF, hpair] at hp
              obtain ⟨h2, -⟩ := heapreplaceF_spec w.lt v l o t
              have : o = v := by
                refine (perm_swap_iff h2).1 ?_
                simp only [finishVal] at hp
                split at hp <;> rename_i hh <;> rw [hh] <;> exact hp
              rw [this]; rfl
      | clear => cases hx
      | peek =>
        simp only [stepF] at hx
        split at hx <;> cases hx
  · intro hh
    cases hh with
    | own _ e => rw [C116_unchanged w h s op _ hx (.inl ⟨e, rfl⟩)]
    | remove o e _ hr => rw [C116_unchanged w h s _ _ hx (.inr ⟨o, e, rfl, hr⟩)]
    | extend fail _ =>
      have hk := C115_what_is_left w h s (.extend [] fail)
      rw [hx] at hk
      cases hk <;> (rename_i h1; simpa using h1)
    | firstComparison o v e _ hv hc =>
      cases hq : h.queue with
      | nil => rw [hq] at hv; cases hv
      | cons v' l =>
        rw [hq] at hv
        cases hv
        obtain ⟨t, hpair⟩ : ∃ t, w.lt v o s = (.error e, t) := ⟨(w.lt v o s).2, by rw [← hc]⟩
        simp [stepF, hq, heappushpopF, hpair, finishVal]
    | sameItem o _ hv =>
      have hk := C115_what_is_left w h s (.appendAndPopleft o)
      rw [hx] at hk
      generalize (stepF w h s (.appendAndPopleft o)).1.queue = after at hk
      cases hk
      · exact .refl _
      · rename_i v h1 h2
        rw [h1] at hv
        cases hv
        exact (perm_swap_iff h2).2 rfl
    | sameItem' o _ hv =>
      have hk := C115_what_is_left w h s (.popleftAndAppend o)
      rw [hx] at hk
      generalize (stepF w h s (.popleftAndAppend o)).1.queue = after at hk
      cases hk
      · rename_i v h1 h2
        rw [h1] at hv
        cases hv
        exact (perm_swap_iff h2).2 rfl
      · rename_i h1
        rw [h1]

end Big.Heap
