import Verif.Heap.Model
/- Helper lemmas for the heap model: heapq's routines keep the heap shape and permute. -/
namespace Big.Heap
variable {α : Type}

theorem StrictWeak.irrefl {lt : α → α → Bool} (w : StrictWeak lt) (a : α) : lt a a = false := by
  cases h : lt a a with
  | false => rfl
  | true => have := w.asymm a a h; simp_all

theorem StrictWeak.nlt_trans {lt : α → α → Bool} (w : StrictWeak lt) {a b c : α}
    (h1 : lt b a = false) (h2 : lt c b = false) : lt c a = false := by
  cases h : lt c a with
  | false => rfl
  | true => rcases w.negtrans c b a h with h' | h' <;> simp_all

/-- Heap order for all parents at index >= s. -/
def IsHeapFrom (lt : α → α → Bool) (s : Nat) (l : List α) : Prop :=
  ∀ j (hj : j < l.length), 0 < j → s ≤ (j - 1) / 2 → lt l[j] (l[(j-1)/2]'(by omega)) = false

/-- pos is s or below s in the tree. -/
inductive Desc (s : Nat) : Nat → Prop
  | refl : Desc s s
  | child (p c : Nat) : Desc s p → (c - 1) / 2 = p → 0 < c → Desc s c

theorem Desc.le {s p : Nat} (h : Desc s p) : s ≤ p := by
  induction h with
  | refl => omega
  | child p c _ h1 h2 ih => omega

theorem Desc.parent {s p : Nat} (h : Desc s p) (hp : s < p) : Desc s ((p - 1) / 2) := by
  cases h with
  | refl => omega
  | child q _ hq h1 h2 => exact h1 ▸ hq

theorem set_swap_perm (l : List α) (p q : Nat) (x : α) (hp : p < l.length) (hq : q < l.length)
    (hne : p ≠ q) : ((l.set p l[q]).set q x).Perm (l.set p x) := by
  have := List.set_set_perm (as := l.set p x) (i := p) (j := q) (by simpa) (by simpa)
  simp only [List.getElem_set_self, List.set_set] at this
  rwa [List.getElem_set_ne hne] at this

theorem siftdownLoop_length (lt : α → α → Bool) (s : Nat) (x : α) (l : List α) (pos : Nat) :
    (siftdownLoop lt s x l pos).length = l.length := by
  fun_induction siftdownLoop lt s x l pos <;> simp_all

theorem siftdownLoop_perm (lt : α → α → Bool) (s : Nat) (x : α) (l : List α) (pos : Nat)
    (hpos : pos < l.length) : (siftdownLoop lt s x l pos).Perm (l.set pos x) := by
  fun_induction siftdownLoop lt s x l pos with
  | case1 l pos h pp hp parent hlt ih =>
    refine (ih (by simpa using hp)).trans ?_
    exact set_swap_perm l pos pp x hpos hp (by omega)
  | case2 => exact .refl _
  | case3 => exact .refl _
  | case4 => exact .refl _

/-- Precondition of the upward loop: `l.set pos x` is a heap from `s` but for the pair
(parent of pos, pos), and the children of pos are fine below pos's parent. -/
def UpInv (lt : α → α → Bool) (s : Nat) (x : α) (l : List α) (pos : Nat) : Prop :=
  (∀ j (hj : j < l.length), 0 < j → s ≤ (j - 1) / 2 → j ≠ pos →
      lt ((l.set pos x)[j]'(by simpa)) ((l.set pos x)[(j-1)/2]'(by simp; omega)) = false) ∧
  (∀ j (_ : j < l.length) (_ : 0 < j) (_ : (j - 1) / 2 = pos) (_ : s < pos),
      lt l[j] (l[(pos-1)/2]'(by omega)) = false)

theorem siftdownLoop_heap {lt : α → α → Bool} (w : StrictWeak lt) (s : Nat) (x : α) (l : List α)
    (pos : Nat) (hpos : pos < l.length) (hd : Desc s pos) (hi : UpInv lt s x l pos) :
    IsHeapFrom lt s (siftdownLoop lt s x l pos) := by
  fun_induction siftdownLoop lt s x l pos with
  | case1 l pos h pp hp parent hlt ih =>
    have hdp := hd.parent (by omega)
    have hle := hdp.le
    refine ih (by simpa using hp) hdp ⟨?_, ?_⟩
    · intro j hj h0 hs hne
      have hj' : j < l.length := by simpa using hj
      by_cases hjp : j = pos
      · subst hjp
        simp only [List.getElem_set]
        have : pp ≠ j := by omega
        simp [this, show (j-1)/2 = pp from rfl]
        exact w.asymm _ _ hlt
      · have h1 := hi.1 j hj' h0 hs hjp
        simp only [List.getElem_set] at h1 ⊢
        simp only [Ne.symm hne, Ne.symm hjp, if_false] at h1 ⊢
        by_cases hq : pp = (j-1)/2
        · simp only [hq, if_true]
          have : ¬ pos = (j-1)/2 := by omega
          simp only [this, if_false] at h1
          have hpar : parent = l[(j-1)/2]'(by omega) := by simp [parent, hq]
          rw [hpar] at hlt
          exact w.nlt_trans (w.asymm _ _ hlt) h1
        · simp only [hq, if_false]
          by_cases hq2 : pos = (j-1)/2
          · simp only [hq2, if_true]
            exact hi.2 j hj' h0 hq2.symm (by omega)
          · simpa [hq2] using h1
    · intro j hj h0 hjp hsp
      have hj' : j < l.length := by simpa using hj
      have hgp : (pp-1)/2 ≠ pos := by omega
      simp only [List.getElem_set]
      simp only [Ne.symm hgp, if_false]
      have hpp := hi.1 pp hp (by omega) (hdp.parent hsp).le (by omega)
      simp only [List.getElem_set] at hpp
      rw [if_neg (by omega), if_neg (by omega)] at hpp
      split
      · exact hpp
      · rename_i hne
        have h1 := hi.1 j hj' h0 (by omega) (Ne.symm hne)
        simp only [List.getElem_set] at h1
        rw [if_neg hne, if_neg (by omega)] at h1
        refine w.nlt_trans hpp ?_
        simpa [hjp] using h1
  | case2 l pos h pp hp parent hlt =>
    intro j hj h0 hs
    simp only [List.length_set] at hj
    by_cases hjp : j = pos
    · subst hjp
      simp only [List.getElem_set]
      simp only [if_true]
      rw [if_neg (by omega)]
      simpa [parent] using hlt
    · exact hi.1 j hj h0 hs hjp
  | case3 l pos h pp hp => omega
  | case4 l pos h =>
    intro j hj h0 hs
    simp only [List.length_set] at hj
    have := hd.le
    exact hi.1 j hj h0 hs (by omega)

theorem siftupLoop_length (lt : α → α → Bool) (l : List α) (pos : Nat) :
    (siftupLoop lt l pos).1.length = l.length := by
  fun_induction siftupLoop lt l pos <;> simp_all

theorem siftupLoop_pos (lt : α → α → Bool) (l : List α) (pos : Nat) (hpos : pos < l.length) :
    (siftupLoop lt l pos).2 < l.length := by
  fun_induction siftupLoop lt l pos with
  | case1 l pos hc hb ih => simpa using ih (by simpa using hb.2)
  | case2 l pos hc => simpa using hpos

theorem siftupLoop_perm (lt : α → α → Bool) (l : List α) (pos : Nat) (x : α)
    (hpos : pos < l.length) :
    ((siftupLoop lt l pos).1.set (siftupLoop lt l pos).2 x).Perm (l.set pos x) := by
  fun_induction siftupLoop lt l pos with
  | case1 l pos hc hb ih =>
    refine (ih (by simpa using hb.2)).trans ?_
    exact set_swap_perm l pos _ x hpos hb.2 (by omega)
  | case2 l pos hc => exact .refl _

theorem smallerChild_le {lt : α → α → Bool} (w : StrictWeak lt) (l : List α) (c : Nat)
    (hc : c < l.length) (j : Nat) (hj : j < l.length) (h : j = c ∨ j = c + 1) :
    lt l[j] (l[smallerChild lt l c]'(smallerChild_bounds lt l c hc).2) = false := by
  unfold smallerChild
  split
  · split
    · rename_i h1 h2
      rcases h with h | h <;> subst h
      · simpa using w.irrefl _
      · simpa using w.asymm _ _ h2
    · rename_i h1 h2
      rcases h with h | h <;> subst h
      · simpa using h2
      · simpa using w.irrefl _
  · rcases h with h | h
    · subst h; simpa using w.irrefl _
    · omega

theorem smallerChild_cases (lt : α → α → Bool) (l : List α) (c : Nat) :
    smallerChild lt l c = c ∨ smallerChild lt l c = c + 1 := by
  unfold smallerChild; split <;> (try split) <;> simp

/-- Invariant of the downward loop, with the hole at `pos`. -/
def DownInv (lt : α → α → Bool) (s : Nat) (l : List α) (pos : Nat) : Prop :=
  (∀ j (hj : j < l.length), 0 < j → s ≤ (j - 1) / 2 → j ≠ pos → (j-1)/2 ≠ pos →
      lt l[j] (l[(j-1)/2]'(by omega)) = false) ∧
  (∀ j (_ : j < l.length) (_ : 0 < j) (_ : (j - 1) / 2 = pos) (_ : s < pos),
      lt l[j] (l[(pos-1)/2]'(by omega)) = false)

theorem siftupLoop_inv {lt : α → α → Bool} (w : StrictWeak lt) (s : Nat) (l : List α) (pos : Nat)
    (hpos : pos < l.length) (hd : Desc s pos) (hi : DownInv lt s l pos) :
    Desc s (siftupLoop lt l pos).2 ∧
    DownInv lt s (siftupLoop lt l pos).1 (siftupLoop lt l pos).2 ∧
    l.length ≤ 2 * (siftupLoop lt l pos).2 + 1 := by
  fun_induction siftupLoop lt l pos with
  | case1 l pos hc hb ih =>
    have hcs := smallerChild_cases lt l (2*pos+1)
    have hmin := smallerChild_le w l (2*pos+1) hc
    have hdc : Desc s (smallerChild lt l (2*pos+1)) := .child pos (smallerChild lt l (2*pos+1)) hd (by omega) (by omega)
    have hle := hd.le
    have := ih (by simpa using hb.2) hdc ?_
    · simpa using this
    · constructor
      · intro j hj h0 hs hne hne2
        have hj' : j < l.length := by simpa using hj
        simp only [List.getElem_set]
        by_cases hjp : j = pos
        · subst hjp
          simp only [if_true]
          rw [if_neg (by omega)]
          exact hi.2 _ hb.2 (by omega) (by omega) (by omega)
        · rw [if_neg (Ne.symm hjp)]
          by_cases hq : pos = (j-1)/2
          · rw [if_pos hq]
            exact hmin j hj' (by omega)
          · rw [if_neg hq]
            exact hi.1 j hj' h0 hs hjp (Ne.symm hq)
      · intro j hj h0 hjc hsc
        have hj' : j < l.length := by simpa using hj
        simp only [List.getElem_set]
        rw [if_neg (by omega), if_pos (by omega)]
        simpa [hjc] using hi.1 j hj' h0 (by omega) (by omega) (by omega)
  | case2 l pos hc => exact ⟨hd, hi, by omega⟩

theorem siftup_length (lt : α → α → Bool) (l : List α) (pos : Nat) :
    (siftup lt l pos).length = l.length := by
  unfold siftup; split <;> simp [siftdownLoop_length, siftupLoop_length]

theorem siftup_perm (lt : α → α → Bool) (l : List α) (pos : Nat) : (siftup lt l pos).Perm l := by
  unfold siftup
  split
  · exact .refl _
  · rename_i x hx
    obtain ⟨hpos, rfl⟩ := List.getElem?_eq_some_iff.1 hx
    refine (siftdownLoop_perm _ _ _ _ _ ?_).trans ?_
    · simpa [siftupLoop_length] using siftupLoop_pos lt l pos hpos
    · simp only [List.set_set]
      refine (siftupLoop_perm lt l pos _ hpos).trans ?_
      simp

theorem siftup_heap {lt : α → α → Bool} (w : StrictWeak lt) (l : List α) (s : Nat)
    (h : IsHeapFrom lt (s+1) l) : IsHeapFrom lt s (siftup lt l s) := by
  unfold siftup
  split
  · rename_i hx
    intro j hj h0 hs
    simp at hx; omega
  · rename_i x hx
    obtain ⟨hpos, rfl⟩ := List.getElem?_eq_some_iff.1 hx
    have hinv : DownInv lt s l s :=
      ⟨fun j hj h0 hs hne hne2 => h j hj h0 (by omega), fun j hj h0 hp hs => by omega⟩
    obtain ⟨h1, h2, h3⟩ := siftupLoop_inv w s l s hpos .refl hinv
    have h4 := siftupLoop_pos lt l s hpos
    have h5 := siftupLoop_length lt l s
    generalize siftupLoop lt l s = r at *
    obtain ⟨r1, r2⟩ := r
    simp only at *
    apply siftdownLoop_heap w _ _ _ _ (by simp; omega) h1
    constructor
    · intro j hj h0 hs hne
      have hj' : j < r1.length := by simpa using hj
      simp only [List.getElem_set]
      rw [if_neg (Ne.symm hne), if_neg (by omega)]
      rw [if_neg (by omega), if_neg (by omega)]
      exact h2.1 j hj' h0 hs hne (by omega)
    · intro j hj h0 hp hs
      simp at hj; omega

theorem heapifyFrom_spec {lt : α → α → Bool} (w : StrictWeak lt) (l : List α) (i : Nat)
    (h : IsHeapFrom lt i l) : IsHeapFrom lt 0 (heapifyFrom lt l i) := by
  induction i generalizing l with
  | zero => exact h
  | succ i ih => exact ih _ (siftup_heap w l i h)

theorem heapifyFrom_perm (lt : α → α → Bool) (l : List α) (i : Nat) :
    (heapifyFrom lt l i).Perm l := by
  induction i generalizing l with
  | zero => exact .refl _
  | succ i ih => exact (ih _).trans (siftup_perm lt l i)

theorem heapify_heap {lt : α → α → Bool} (w : StrictWeak lt) (l : List α) :
    IsHeapFrom lt 0 (heapify lt l) :=
  heapifyFrom_spec w l _ (fun j hj h0 hs => by omega)

theorem heapify_perm (lt : α → α → Bool) (l : List α) : (heapify lt l).Perm l :=
  heapifyFrom_perm lt l _

theorem heappush_perm (lt : α → α → Bool) (l : List α) (x : α) :
    (heappush lt l x).Perm (x :: l) := by
  unfold heappush siftdown
  simp only [List.length_append, List.length_singleton, Nat.add_sub_cancel]
  split
  · rename_i h; simp at h
  · rename_i y h
    refine (siftdownLoop_perm _ _ _ _ _ (by simp)).trans ?_
    simp at h; subst h
    simp

theorem heappush_heap {lt : α → α → Bool} (w : StrictWeak lt) (l : List α) (x : α)
    (h : IsHeapFrom lt 0 l) : IsHeapFrom lt 0 (heappush lt l x) := by
  unfold heappush siftdown
  simp only [List.length_append, List.length_singleton, Nat.add_sub_cancel]
  split
  · rename_i h; simp at h
  · rename_i y hy
    simp at hy; subst hy
    have hdesc : ∀ n, Desc 0 n := by
      intro n
      induction n using Nat.strongRecOn with
      | _ n ih =>
        rcases Nat.eq_zero_or_pos n with rfl | hn
        · exact .refl
        · exact .child _ n (ih ((n-1)/2) (by omega)) rfl hn
    apply siftdownLoop_heap w _ _ _ _ (by simp) (hdesc _)
    constructor
    · intro j hj h0 hs hne
      simp at hj
      have hj' : j < l.length := by omega
      have := h j hj' h0 hs
      simp [hj', show (j-1)/2 < l.length by omega, this]
    · intro j hj h0 hp hs
      simp at hj; omega

theorem root_min {lt : α → α → Bool} (w : StrictWeak lt) (l : List α)
    (h : IsHeapFrom lt 0 l) (j : Nat) (hj : j < l.length) :
    lt l[j] (l[0]'(by omega)) = false := by
  induction j using Nat.strongRecOn with
  | _ j ih =>
    rcases Nat.eq_zero_or_pos j with rfl | hn
    · exact w.irrefl _
    · exact w.nlt_trans (ih ((j-1)/2) (by omega) (by omega)) (h j hj hn (by omega))

theorem head_min {lt : α → α → Bool} (w : StrictWeak lt) (a : α) (l : List α)
    (h : IsHeapFrom lt 0 (a :: l)) : ∀ x ∈ a :: l, lt x a = false := by
  intro x hx
  obtain ⟨j, hj, rfl⟩ := List.getElem_of_mem hx
  exact root_min w _ h j hj

theorem replace_root_heap {lt : α → α → Bool} (w : StrictWeak lt) (a b : α) (l : List α)
    (h : IsHeapFrom lt 0 (a :: l)) : IsHeapFrom lt 0 (siftup lt (b :: l) 0) := by
  apply siftup_heap w
  intro j hj h0 hs
  have := h j hj h0 (by omega)
  obtain ⟨k, hk⟩ : ∃ k, j = k + 1 := ⟨j-1, by omega⟩
  obtain ⟨m, hm⟩ : ∃ m, (j-1)/2 = m + 1 := ⟨(j-1)/2-1, by omega⟩
  simp only [hm] at this ⊢
  subst hk
  simpa using this

theorem dropLast_heap {lt : α → α → Bool} (l : List α)
    (h : IsHeapFrom lt 0 l) : IsHeapFrom lt 0 l.dropLast := by
  intro j hj h0 hs
  simp at hj
  simpa using h j (by omega) h0 hs

/-- heappop: minimum out, rest is a heap. -/
theorem heappop_spec {lt : α → α → Bool} (w : StrictWeak lt) (l : List α)
    (h : IsHeapFrom lt 0 l) (hne : l ≠ []) :
    ∃ v q, heappop lt l = .ok (v, q) ∧ l.Perm (v :: q) ∧ IsHeapFrom lt 0 q ∧
      (∀ x ∈ l, lt x v = false) ∧ l.head? = some v := by
  unfold heappop
  have hl : l.getLast? = some (l.getLast hne) := List.getLast?_eq_some_getLast hne
  rw [hl]
  simp only
  have hdec := List.dropLast_concat_getLast hne
  split
  · rename_i hd
    rw [hd] at hdec
    refine ⟨_, _, rfl, ?_, ?_, ?_, ?_⟩
    · simp only [List.nil_append] at hdec; rw [hdec]
    · intro j hj; simp at hj
    · intro x hx
      rw [← hdec] at hx
      simp at hx
      subst hx; exact w.irrefl _
    · conv => lhs; rw [← hdec]
      simp
  · rename_i r rest hd
    have hh := dropLast_heap l h
    rw [hd] at hh hdec
    refine ⟨_, _, rfl, ?_, replace_root_heap w r _ rest hh, ?_, ?_⟩
    · conv => lhs; rw [← hdec]
      refine .trans ?_ (.cons _ (siftup_perm lt _ 0).symm)
      exact .cons _ (by simp)
    · rw [← hdec] at h
      have := head_min w r (rest ++ [l.getLast hne]) h
      rw [← hdec]
      exact this
    · rw [← hdec]; simp

theorem heappop_nil (lt : α → α → Bool) : heappop lt ([] : List α) = .error .indexError := rfl

theorem heapreplace_spec {lt : α → α → Bool} (w : StrictWeak lt) (a : α) (l : List α) (x : α)
    (h : IsHeapFrom lt 0 (a :: l)) :
    ∃ q, heapreplace lt (a :: l) x = .ok (a, q) ∧ q.Perm (x :: l) ∧ IsHeapFrom lt 0 q ∧
      (∀ y ∈ a :: l, lt y a = false) :=
  ⟨_, rfl, siftup_perm lt _ 0, replace_root_heap w a x l h, head_min w a l h⟩

theorem heappushpop_spec {lt : α → α → Bool} (w : StrictWeak lt) (l : List α) (x : α)
    (h : IsHeapFrom lt 0 l) :
    (x :: l).Perm ((heappushpop lt l x).1 :: (heappushpop lt l x).2) ∧
      IsHeapFrom lt 0 (heappushpop lt l x).2 ∧
      (∀ y ∈ x :: l, lt y (heappushpop lt l x).1 = false) := by
  cases l with
  | nil => exact ⟨.refl _, h, by simpa [heappushpop] using w.irrefl x⟩
  | cons a l =>
    have hm := head_min w a l h
    unfold heappushpop
    simp only
    split
    · rename_i hlt
      refine ⟨?_, replace_root_heap w a x l h, ?_⟩
      · exact (List.Perm.swap a x l).trans (.cons _ (siftup_perm lt _ 0).symm)
      · intro y hy
        rcases List.mem_cons.1 hy with rfl | hy
        · exact w.asymm _ _ hlt
        · exact hm y hy
    · rename_i hlt
      refine ⟨.refl _, h, ?_⟩
      intro y hy
      have hlt : lt a x = false := by simpa using hlt
      rcases List.mem_cons.1 hy with rfl | hy
      · exact w.irrefl _
      · exact w.nlt_trans hlt (hm y hy)

end Big.Heap
