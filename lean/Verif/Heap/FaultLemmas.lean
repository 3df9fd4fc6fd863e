import Verif.Heap.FaultModel
import Verif.Heap.Lemmas2
/-!
# Lemmas about Heap when a comparison raises
-/
namespace Big.Heap

variable {α σ ε : Type}

theorem swap_perm (l : List α) (p q : Nat) (a b : α) (hp : l[p]? = some a) (hq : l[q]? = some b) :
    ((l.set p b).set q a).Perm l := by
  obtain ⟨h1, h2⟩ := List.getElem?_eq_some_iff.mp hp
  obtain ⟨h3, h4⟩ := List.getElem?_eq_some_iff.mp hq
  subst h2 h4
  exact List.set_set_perm h1 h3

theorem siftdownF_perm (lt : Cmp σ ε α) (startpos : Nat) (heap : List α) (pos : Nat) (s : σ) :
    (siftdownF lt startpos heap pos s).1.Perm heap := by
  fun_induction siftdownF lt startpos heap pos s with
  | case1 => exact .refl _
  | case2 => exact .refl _
  | case3 heap pos s h a b hb ha s1 hlt ih =>
    refine ih.trans (swap_perm _ _ _ _ _ ha hb)
  | case4 => exact .refl _
  | case5 => exact .refl _

theorem siftupF_perm (lt : Cmp σ ε α) (startpos : Nat) (heap : List α) (pos : Nat) (s : σ) :
    (siftupF lt startpos heap pos s).1.Perm heap := by
  fun_induction siftupF lt startpos heap pos s with
  | case1 => exact .refl _
  | case2 heap pos s h c s1 hr a b hb ha ih =>
    refine ih.trans (swap_perm _ _ _ _ _ ha hb)
  | case3 => exact .refl _
  | case4 => exact siftdownF_perm _ _ _ _ _

theorem heapifyF_perm (lt : Cmp σ ε α) (is : List Nat) (heap : List α) (s : σ) :
    (heapifyF lt is heap s).1.Perm heap := by
  induction is generalizing heap s with
  | nil => exact .refl _
  | cons i is ih =>
    have h1 := siftupF_perm lt i heap i s
    unfold heapifyF
    split
    · rename_i he; rw [he] at h1; exact h1
    · rename_i he; rw [he] at h1; exact (ih _ _).trans h1

theorem heappushF_perm (lt : Cmp σ ε α) (heap : List α) (item : α) (s : σ) :
    (heappushF lt heap item s).1.Perm (item :: heap) :=
  (siftdownF_perm _ _ _ _ _).trans (List.perm_append_comm (l₁ := heap) (l₂ := [item]))

theorem getLast?_dropLast {l : List α} {a : α} (h : l.getLast? = some a) : l = l.dropLast ++ [a] := by
  rw [List.getLast?_eq_some_iff] at h
  obtain ⟨l', rfl⟩ := h
  simp

/-! ## Both versions of heapq give the same lists -/

/-- A comparison that never raises. -/
def pureCmp (ε : Type) (lt : α → α → Bool) : Cmp σ ε α := fun a b s => (.ok (lt a b), s)

theorem siftdownF_pure (lt : α → α → Bool) (startpos : Nat) (x : α) (l : List α) (pos : Nat) (s : σ)
    (hpos : pos < l.length) :
    siftdownF (pureCmp ε lt) startpos (l.set pos x) pos s = (siftdownLoop lt startpos x l pos, none, s) := by
  fun_induction siftdownLoop lt startpos x l pos with
  | case1 l pos h pp hp parent hlt ih =>
    unfold siftdownF
    rw [dif_pos h]
    have h1 : (l.set pos x)[pos]? = some x := by simp [hpos]
    have h2 : (l.set pos x)[(pos - 1) / 2]? = some parent := by
      rw [List.getElem?_set_ne (by omega)]; exact List.getElem?_eq_getElem hp
    rw [h1, h2]
    simp only [pureCmp, hlt]
    rw [List.set_set]
    exact ih (by simpa using hp)
  | case2 l pos h pp hp parent hlt =>
    unfold siftdownF
    rw [dif_pos h]
    have h1 : (l.set pos x)[pos]? = some x := by simp [hpos]
    have h2 : (l.set pos x)[(pos - 1) / 2]? = some parent := by
      rw [List.getElem?_set_ne (by omega)]; exact List.getElem?_eq_getElem hp
    rw [h1, h2]
    have : lt x parent = false := by simpa using hlt
    simp only [pureCmp, this]
  | case3 l pos h pp hp => exact absurd (show (pos - 1) / 2 < l.length by omega) hp
  | case4 l pos h =>
    unfold siftdownF
    rw [dif_neg h]

theorem smallerChildF_pure (lt : α → α → Bool) (l : List α) (c : Nat) (s : σ) (hc : c < l.length) :
    smallerChildF (pureCmp ε lt) l c s = (.ok (smallerChild lt l c), s) := by
  unfold smallerChildF smallerChild
  by_cases h1 : c + 1 < l.length
  · rw [List.getElem?_eq_getElem hc, List.getElem?_eq_getElem h1, dif_pos h1]
    simp only [pureCmp]
    by_cases h2 : lt l[c] l[c + 1] = true
    · simp [h2]
    · simp [h2]
  · rw [List.getElem?_eq_none (i := c + 1) (by omega), dif_neg h1]
    split
    · rename_i h; cases h
    · rfl

theorem smallerChild_set (lt : α → α → Bool) (l : List α) (p c : Nat) (x : α) (h : p < c) :
    smallerChild lt (l.set p x) c = smallerChild lt l c := by
  unfold smallerChild
  simp only [List.length_set]
  split
  · rw [List.getElem_set_ne (by omega), List.getElem_set_ne (by omega)]
  · rfl

theorem siftupF_pure (lt : α → α → Bool) (startpos : Nat) (x : α) (l : List α) (pos : Nat) (s : σ)
    (hpos : pos < l.length) :
    siftupF (pureCmp ε lt) startpos (l.set pos x) pos s =
      (siftdownLoop lt startpos x ((siftupLoop lt l pos).1.set (siftupLoop lt l pos).2 x) (siftupLoop lt l pos).2,
        none, s) := by
  fun_induction siftupLoop lt l pos with
  | case1 l pos hc hb ih =>
    unfold siftupF
    rw [dif_pos (by simp; omega)]
    have hs := smallerChildF_pure (ε := ε) lt (l.set pos x) (2 * pos + 1) s (by simpa using hc)
    rw [smallerChild_set _ _ _ _ _ (by omega)] at hs
    have h1 : (l.set pos x)[pos]? = some x := by simp [hpos]
    have h2 : (l.set pos x)[smallerChild lt l (2 * pos + 1)]? = some (l[smallerChild lt l (2 * pos + 1)]'hb.2) := by
      rw [List.getElem?_set_ne (by omega)]; exact List.getElem?_eq_getElem hb.2
    split
    · rename_i e s1 hr; rw [hs] at hr; cases hr
    · rename_i c s1 hr
      rw [hs] at hr
      cases hr
      rw [h1, h2]
      dsimp only
      rw [List.set_set]
      exact ih (by simpa using hb.2)
  | case2 l pos hc =>
    unfold siftupF
    rw [dif_neg (by simp; omega)]
    dsimp only
    have := siftdownF_pure (ε := ε) lt startpos x (l.set pos x) pos s (by simpa using hpos)
    rw [List.set_set] at this
    exact this

theorem siftup_eq (lt : α → α → Bool) (l : List α) (pos : Nat) (s : σ) (hpos : pos < l.length) :
    siftupF (pureCmp ε lt) pos l pos s = (siftup lt l pos, none, s) := by
  have h := siftupF_pure (ε := ε) lt pos l[pos] l pos s hpos
  rw [List.set_getElem_self] at h
  rw [h]
  unfold siftup
  rw [List.getElem?_eq_getElem hpos]

/-- The order of heapify for up to 2500 items (_heapqmodule.c): from the last position that has a child to the
first. -/
def plainOrder (n : Nat) : List Nat := (List.range (n / 2)).reverse

theorem heapifyF_pure (lt : α → α → Bool) (l : List α) (s : σ) (n : Nat) (hn : n ≤ l.length / 2) :
    heapifyF (pureCmp ε lt) (List.range n).reverse l s = (heapifyFrom lt l n, none, s) := by
  induction n generalizing l with
  | zero => rfl
  | succ n ih =>
    rw [List.range_succ, List.reverse_append]
    show heapifyF (pureCmp ε lt) (n :: (List.range n).reverse) l s = _
    unfold heapifyF
    rw [siftup_eq lt l n s (by omega)]
    exact ih (siftup lt l n) (by rw [siftup_length]; omega)

theorem heapify_eq (lt : α → α → Bool) (l : List α) (s : σ) :
    heapifyF (pureCmp ε lt) (plainOrder l.length) l s = (heapify lt l, none, s) :=
  heapifyF_pure lt l s _ (Nat.le_refl _)

theorem heappush_eq (lt : α → α → Bool) (l : List α) (x : α) (s : σ) :
    heappushF (pureCmp ε lt) l x s = (heappush lt l x, none, s) := by
  have h := siftdownF_pure (ε := ε) lt 0 x (l ++ [x]) l.length s (by simp)
  have h1 : (l ++ [x]).set l.length x = l ++ [x] := by simp
  rw [h1] at h
  unfold heappushF heappush siftdown
  rw [h]
  simp

/-- The result of heapq's Python source, as a result of its C source. -/
def ofExcept (l : List α) (s : σ) : Except Err (α × List α) → Res σ ε α α
  | .error e => (l, .error (.heap e), s)
  | .ok (v, l) => (l, .ok v, s)

theorem heappop_eq (lt : α → α → Bool) (l : List α) (s : σ) :
    heappopF (pureCmp ε lt) l s = ofExcept l s (heappop lt l) := by
  unfold heappopF heappop
  cases h : l.getLast? with
  | none => rfl
  | some a =>
    dsimp only
    cases h2 : l.dropLast with
    | nil => rfl
    | cons r rest =>
      dsimp only
      rw [siftup_eq lt (a :: rest) 0 s (by simp)]
      rfl

theorem heapreplace_eq (lt : α → α → Bool) (l : List α) (x : α) (s : σ) :
    heapreplaceF (pureCmp ε lt) l x s = ofExcept l s (heapreplace lt l x) := by
  unfold heapreplaceF heapreplace
  cases l with
  | nil => rfl
  | cons a l =>
    dsimp only
    rw [siftup_eq lt (x :: l) 0 s (by simp)]
    rfl

theorem heappushpop_eq (lt : α → α → Bool) (l : List α) (x : α) (s : σ) :
    heappushpopF (pureCmp ε lt) l x s = ofExcept l s (.ok (heappushpop lt l x)) := by
  unfold heappushpopF heappushpop
  cases l with
  | nil => rfl
  | cons a l =>
    dsimp only [pureCmp]
    cases h : lt a x with
    | false => rfl
    | true =>
      dsimp only
      have := heapreplace_eq (ε := ε) lt (a :: l) x s
      rw [this]
      rfl

theorem listRemove_eq (eq : α → α → Bool) (o : α) (l : List α) (s : σ) :
    listRemoveF (pureCmp ε eq) o l s =
      (match listRemove eq l o with | .error e => .error (.heap e) | .ok l => .ok l, s) := by
  induction l with
  | nil => rfl
  | cons a l ih =>
    unfold listRemoveF
    simp only [pureCmp]
    cases h : eq a o with
    | true => simp [listRemove, h]
    | false =>
      dsimp only
      rw [ih]
      unfold listRemove
      by_cases h2 : l.any (fun x => eq x o) = true
      · simp [h, h2]
      · simp [h, h2]

/-- A call of this model for a call of `Verif.Heap.Model`. -/
def Op.toF (ε : Type) : Op α → FOp ε α
  | .append o => .append o
  | .extend i => .extend i none
  | .remove o => .remove o
  | .popleft => .popleft
  | .appendAndPopleft o => .appendAndPopleft o
  | .popleftAndAppend o => .popleftAndAppend o
  | .clear => .clear
  | .peek => .peek

/-- An outcome of `Verif.Heap.Model` as an outcome of this model. -/
def Out.toF (ε : Type) : Out α → FOut ε α
  | .none => .done
  | .val v => .val v
  | .err e => .exn (.heap e)

/-- A world in which nothing raises. -/
def pureWorld (σ ε : Type) (lt eq : α → α → Bool) : World σ ε α := ⟨pureCmp ε lt, pureCmp ε eq, plainOrder⟩

theorem stepF_pure (lt eq : α → α → Bool) (h : Heap α) (s : σ) (op : Op α) :
    stepF (pureWorld σ ε lt eq) h s (op.toF ε) = ((step lt eq h op).1, (step lt eq h op).2.toF ε, s) := by
  cases op with
  | append o => simp only [Op.toF, stepF, pureWorld, heappush_eq]; rfl
  | extend i => simp only [Op.toF, stepF, pureWorld, heapify_eq]; rfl
  | remove o =>
    simp only [Op.toF, stepF, pureWorld, listRemove_eq, step, Heap.remove]
    cases listRemove eq h.queue o with
    | error e => rfl
    | ok q => simp only [heapify_eq]; rfl
  | popleft =>
    simp only [Op.toF, stepF, pureWorld, heappop_eq, step, Heap.popleft]
    cases heappop lt h.queue with
    | error e => rfl
    | ok r => rfl
  | appendAndPopleft o =>
    simp only [Op.toF, stepF, pureWorld, heappushpop_eq, step, Heap.appendAndPopleft]; rfl
  | popleftAndAppend o =>
    simp only [Op.toF, stepF, pureWorld, heapreplace_eq, step, Heap.popleftAndAppend]
    cases heapreplace lt h.queue o with
    | error e => rfl
    | ok r => rfl
  | clear => rfl
  | peek =>
    simp only [Op.toF, stepF, pureWorld, step, getInt_zero]
    split <;> simp_all [Out.toF]

end Big.Heap
