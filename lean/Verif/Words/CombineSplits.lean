import Verif.Heap.Lemmas
import Verif.Words.Spec
/-!
# C45: combine_splits (big/text.py:1466-1562)

Strings are lists of characters of any type. The heap of split-length arrays is the heapq of
`Verif.Heap.Model`, with Python's lexicographic `<` on lists of ints. A generator run to the end is
the list of what it yielded and the exception that ended it, if any.
-/
namespace Big.Words
open Big.Heap (Err heapify heappop heappush IsHeapFrom StrictWeak)

variable {α : Type}

/-- Python's `<` on lists of (here non-negative) ints, which heapq uses. For text.py:1509-1514. -/
def listLt : List Nat → List Nat → Bool
  | _, [] => false
  | [], _ :: _ => true
  | a :: l, b :: m => if a = b then listLt l m else decide (a < b)

/-- `lengths[0] = lengths[0] - index` (text.py:1497-1507). The difference is never negative, as
index is the smallest first element. -/
def decFirst (index : Nat) : List Nat → List Nat
  | [] => []
  | a :: l => (a - index) :: l

/-- Is the first element zero?  (text.py:1501) -/
def zeroFirst : List Nat → Bool
  | [] => false
  | a :: _ => a == 0

/-- `while pops: ...` (text.py:1509-1514). -/
def popLoop : Nat → List (List Nat) → Except Err (List (List Nat))
  | 0, heap => .ok heap
  | pops + 1, heap =>
    match heappop listLt heap with
    | .error e => .error e
    | .ok (splits, heap) =>
      if splits.length > 1 then popLoop pops (heappush listLt heap splits.tail)
      else popLoop pops heap

/-- The single remaining array, and the rest of s (text.py:1519-1531). -/
def lastLoop (s : List α) : Nat → Nat → List Nat → List (List α) × Option Err
  | _, stop, [] => (if (s.drop stop).isEmpty then [] else [s.drop stop], none)
  | start, stop, index :: l =>
    if stop + index > s.length then ([], some .valueError)
    else
      let r := lastLoop s (start + index) (stop + index) l
      ((s.take (stop + index)).drop start :: r.1, r.2)

/-- What follows the `while True` loop (text.py:1519-1531). -/
def afterLoop (s : List α) : List (List Nat) → List (List α) × Option Err
  | [] => (if s.isEmpty then [] else [s], none)
  | a :: _ => lastLoop s 0 0 a

/-- `snippet == s` and `index > len(s)` (text.py:1484-1487). -/
def pastEnd (s : List α) (index : Nat) : Prop := s.take index = s ∧ index > s.length

/-- The generator (text.py:1466-1531); `while True` is entered when at least two arrays are left.
The test that s gets shorter is Lean's termination check: index is never 0. -/
def combineLoop (s : List α) (heap : List (List Nat)) : List (List α) × Option Err :=
  match heap with
  | smallest :: b :: rest =>
    let index := smallest.headD 0
    if index > s.length then ([], some .valueError)
    else if (s.drop index).isEmpty then ([s.take index], none)
    else
      let heap := (smallest :: b :: rest).map (decFirst index)
      let pops := heap.countP zeroFirst
      match popLoop pops heap with
      | .error e => ([s.take index], some e)
      | .ok heap =>
        if _h : (s.drop index).length < s.length then
          let r := combineLoop (s.drop index) heap
          (s.take index :: r.1, r.2)
        else ([s.take index], none)
  | heap => afterLoop s heap
termination_by s.length
decreasing_by exact _h

/-- combine_splits (text.py:1535-1562). -/
def combineSplits (s : List α) (arrays : List (List (List α))) : List (List α) × Option Err :=
  let lengths := arrays.map (fun a => (a.filter (fun p => !p.isEmpty)).map List.length)
  combineLoop s (heapify listLt (lengths.filter (fun l => !l.isEmpty)))

/-- text.py:1484: the first comparison is implied by the second, so the model's `combineLoop` tests
only the second. -/
theorem pastEnd_iff (s : List α) (index : Nat) : pastEnd s index ↔ index > s.length := by
  constructor
  · exact fun h => h.2
  · exact fun h => ⟨List.take_of_length_le (by omega), h⟩

/-! ### the order -/

theorem listLt_asymm : ∀ a b, listLt a b = true → listLt b a = false := by
  intro a
  induction a with
  | nil => intro b h; cases b <;> simp_all [listLt]
  | cons x a ih =>
    intro b h
    cases b with
    | nil => simp [listLt] at h
    | cons y b =>
      simp only [listLt] at h ⊢
      split at h
      · rename_i e
        rw [if_pos e.symm]; exact ih b h
      · rename_i e
        rw [if_neg (fun h => e h.symm)]
        simp at h ⊢
        omega

theorem listLt_negtrans : ∀ a b c, listLt a c = true → listLt a b = true ∨ listLt b c = true := by
  intro a
  induction a with
  | nil =>
    intro b c h
    cases c with
    | nil => simp [listLt] at h
    | cons z c => cases b <;> simp [listLt]
  | cons x a ih =>
    intro b c h
    cases c with
    | nil => simp [listLt] at h
    | cons z c =>
      cases b with
      | nil => simp [listLt]
      | cons y b =>
        simp only [listLt] at h ⊢
        by_cases h1 : x = z
        · rw [if_pos h1] at h
          subst h1
          by_cases h2 : x = y
          · subst h2; simpa using ih b c h
          · rw [if_neg h2, if_neg (fun h => h2 h.symm)]
            simp; omega
        · rw [if_neg h1] at h
          simp at h
          by_cases h2 : x = y
          · subst h2; right; rw [if_neg h1]; simpa using h
          · by_cases h3 : y = z
            · subst h3; left; rw [if_neg h2]; simpa using h
            · rw [if_neg h2, if_neg h3]; simp; omega

theorem listLt_weak : StrictWeak listLt := ⟨listLt_asymm, listLt_negtrans⟩

theorem head_le_of_nlt {a b : Nat} {l m : List Nat} (h : listLt (a :: l) (b :: m) = false) : b ≤ a := by
  simp only [listLt] at h
  split at h
  · omega
  · simpa using h

/-- "decrementing the first integer in every list by the same amount maintains the heap invariants" -/
theorem listLt_dec {i : Nat} {x y : List Nat} (hx : ∀ a l, x = a :: l → i ≤ a)
    (hy : ∀ a l, y = a :: l → i ≤ a) : listLt (decFirst i x) (decFirst i y) = listLt x y := by
  cases x with
  | nil => cases y <;> simp [listLt, decFirst]
  | cons a x =>
    cases y with
    | nil => simp [listLt, decFirst]
    | cons b y =>
      have := hx a x rfl
      have := hy b y rfl
      simp only [listLt, decFirst]
      by_cases h : a = b
      · subst h; simp
      · rw [if_neg h, if_neg (by omega)]
        congr 1
        apply propext
        constructor <;> intro <;> omega

theorem heap_dec {i : Nat} {h : List (List Nat)} (hh : IsHeapFrom listLt 0 h)
    (hi : ∀ x ∈ h, ∀ a l, x = a :: l → i ≤ a) : IsHeapFrom listLt 0 (h.map (decFirst i)) := by
  intro j hj h0 hs
  simp only [List.length_map] at hj
  rw [List.getElem_map, List.getElem_map, listLt_dec (hi _ (List.getElem_mem _)) (hi _ (List.getElem_mem _))]
  exact hh j hj h0 hs

/-! ### arrays and their cuts -/

/-- Non-empty array of positive lengths. -/
def Good (a : List Nat) : Prop := a ≠ [] ∧ ∀ x ∈ a, 0 < x

/-- Array with positive entries except perhaps the first. -/
def Semi (a : List Nat) : Prop := a ≠ [] ∧ ∀ x ∈ a.tail, 0 < x

/-- What happens to an array whose first entry reached zero. -/
def trim (a : List Nat) : Option (List Nat) :=
  if zeroFirst a then (if a.tail.isEmpty then none else some a.tail) else some a

theorem trim_good {a b : List Nat} (ha : Semi a) (h : trim a = some b) : Good b := by
  unfold trim at h
  split at h
  · split at h
    · simp at h
    · simp only [Option.some.injEq] at h
      subst h
      rename_i hne
      exact ⟨by simpa using hne, ha.2⟩
  · simp only [Option.some.injEq] at h
    subst h
    refine ⟨ha.1, ?_⟩
    cases a with
    | nil => simp
    | cons x l =>
      intro y hy
      rcases List.mem_cons.1 hy with rfl | hy
      · rename_i hz; simp [zeroFirst] at hz; omega
      · exact ha.2 y hy

theorem trim_of_good {a : List Nat} (h : Good a) : trim a = some a := by
  cases a with
  | nil => exact absurd rfl h.1
  | cons x l =>
    have := h.2 x (by simp)
    unfold trim
    rw [if_neg]
    simp [zeroFirst]; omega

theorem popLoop_spec : ∀ (n : Nat) (h : List (List Nat)), h.countP zeroFirst = n →
    IsHeapFrom listLt 0 h → (∀ a ∈ h, Semi a) →
    ∃ q, popLoop n h = .ok q ∧ IsHeapFrom listLt 0 q ∧ q.Perm (h.filterMap trim) := by
  intro n
  induction n with
  | zero =>
    intro h hz hh hs
    refine ⟨h, rfl, hh, ?_⟩
    rw [List.countP_eq_zero] at hz
    have : h.filterMap trim = h := by
      clear hh hs
      induction h with
      | nil => rfl
      | cons a l ih =>
        have ha : trim a = some a := by
          unfold trim; rw [if_neg (hz a (by simp))]
        rw [List.filterMap_cons_some ha, ih (fun x hx => hz x (by simp [hx]))]
    rw [this]
  | succ n ih =>
    intro h hz hh hs
    have hne : h ≠ [] := by rintro rfl; simp at hz
    obtain ⟨v, q, hpop, hperm, hq, hmin, _⟩ := Big.Heap.heappop_spec listLt_weak h hh hne
    have hpos : 0 < h.countP zeroFirst := by omega
    obtain ⟨x, hx, hzx⟩ := List.countP_pos_iff.1 hpos
    have hvm : v ∈ h := hperm.mem_iff.2 (by simp)
    have hzv : zeroFirst v = true := by
      have h1 := hmin x hx
      have h2 := (hs v hvm).1
      cases v with
      | nil => exact absurd rfl h2
      | cons b m =>
        cases x with
        | nil => simp [zeroFirst] at hzx
        | cons a l =>
          have := head_le_of_nlt h1
          simp [zeroFirst] at hzx ⊢
          omega
    have hcq : q.countP zeroFirst = n := by
      have := hperm.countP_eq zeroFirst
      rw [hz, List.countP_cons_of_pos hzv] at this
      omega
    have hsq : ∀ a ∈ q, Semi a := fun a ha => hs a (hperm.mem_iff.2 (by simp [ha]))
    have hfm := hperm.filterMap trim
    simp only [popLoop, hpop]
    split
    · rename_i hl
      have htail : Good v.tail := by
        refine ⟨?_, (hs v hvm).2⟩
        cases v with
        | nil => simp at hl
        | cons a l => cases l with
          | nil => simp at hl
          | cons b l => simp
      have hz' : zeroFirst v.tail = false := by
        have h1 := htail.1
        have h2 := htail.2
        cases hvt : v.tail with
        | nil => exact absurd hvt h1
        | cons a l =>
          rw [hvt] at h2
          have := h2 a (by simp)
          simp [zeroFirst]; omega
      have hpp := Big.Heap.heappush_perm listLt q v.tail
      obtain ⟨q', h1, h2, h3⟩ := ih (heappush listLt q v.tail)
        (by rw [hpp.countP_eq, List.countP_cons_of_neg (by simp [hz'])]; exact hcq)
        (Big.Heap.heappush_heap listLt_weak q v.tail hq)
        (by
          intro a ha
          rcases List.mem_cons.1 (hpp.mem_iff.1 ha) with rfl | ha
          · exact ⟨htail.1, fun x hx => htail.2 x (List.mem_of_mem_tail hx)⟩
          · exact hsq a ha)
      refine ⟨q', h1, h2, h3.trans ((hpp.filterMap trim).trans (hfm.trans ?_).symm)⟩
      have : trim v = some v.tail := by
        unfold trim
        rw [if_pos hzv, if_neg (by simpa using htail.1)]
      rw [List.filterMap_cons_some this, List.filterMap_cons_some (trim_of_good htail)]
    · rename_i hl
      obtain ⟨q', h1, h2, h3⟩ := ih q hcq hq hsq
      refine ⟨q', h1, h2, h3.trans (hfm.trans ?_).symm⟩
      have : trim v = none := by
        unfold trim
        rw [if_pos hzv, if_pos]
        cases v with
        | nil => rfl
        | cons a l => cases l with
          | nil => rfl
          | cons b l => simp at hl
      rw [List.filterMap_cons_none this]

/-- Some array has a (non-trivial) cut at `n`. -/
def Hits (h : List (List Nat)) (n : Nat) : Prop := ∃ a ∈ h, ∃ k, 0 < k ∧ k ≤ a.length ∧ (a.take k).sum = n

theorem hits_perm {h h' : List (List Nat)} (p : h.Perm h') (n : Nat) : Hits h n ↔ Hits h' n := by
  constructor <;> rintro ⟨a, ha, r⟩
  · exact ⟨a, p.mem_iff.1 ha, r⟩
  · exact ⟨a, p.mem_iff.2 ha, r⟩

/-- One array, one step of `i`. -/
def stepArr (i : Nat) (a : List Nat) : Option (List Nat) := trim (decFirst i a)

theorem hits_step {i : Nat} {h : List (List Nat)} (hg : ∀ a ∈ h, Good a)
    (hi : ∀ a ∈ h, i ≤ a.headD 0) (n : Nat) (hn : i < n) :
    Hits h n ↔ Hits ((h.map (decFirst i)).filterMap trim) (n - i) := by
  have key : ∀ b, b ∈ (h.map (decFirst i)).filterMap trim ↔ ∃ a ∈ h, trim (decFirst i a) = some b := by
    intro b; simp [List.mem_filterMap]
  constructor
  · rintro ⟨a, ha, k, hk0, hkl, hsum⟩
    have hi' := hi a ha
    have hg' := hg a ha
    cases a with
    | nil => exact absurd rfl hg'.1
    | cons x l =>
      simp only [List.headD_cons] at hi'
      obtain ⟨k, rfl⟩ : ∃ k', k = k' + 1 := ⟨k - 1, by omega⟩
      simp only [List.take_succ_cons, List.sum_cons] at hsum
      simp only [List.length_cons, Nat.add_le_add_iff_right] at hkl
      by_cases hx : x = i
      · subst hx
        have hk : k ≠ 0 := by rintro rfl; simp at hsum; omega
        have hl : l ≠ [] := by rintro rfl; simp at hkl; omega
        refine ⟨l, (key l).2 ⟨x :: l, ha, ?_⟩, k, by omega, hkl, by omega⟩
        simp [trim, decFirst, zeroFirst, hl]
      · refine ⟨(x - i) :: l, (key _).2 ⟨x :: l, ha, ?_⟩, k + 1, by omega, by simpa using hkl, ?_⟩
        · unfold trim; rw [if_neg]
          · rfl
          · simp [decFirst, zeroFirst]; omega
        · simp only [List.take_succ_cons, List.sum_cons]; omega
  · rintro ⟨b, hb, k, hk0, hkl, hsum⟩
    obtain ⟨a, ha, htr⟩ := (key b).1 hb
    have hi' := hi a ha
    have hg' := hg a ha
    cases a with
    | nil => exact absurd rfl hg'.1
    | cons x l =>
      simp only [List.headD_cons] at hi'
      unfold trim at htr
      simp only [decFirst, zeroFirst, beq_iff_eq, List.tail_cons] at htr
      split at htr
      · by_cases hl : l = []
        · simp [hl] at htr
        · simp [hl] at htr
          subst htr
          refine ⟨x :: l, ha, k + 1, by omega, by simpa using hkl, ?_⟩
          simp only [List.take_succ_cons, List.sum_cons]; omega
      · simp only [Option.some.injEq] at htr
        subst htr
        obtain ⟨k, rfl⟩ : ∃ k', k = k' + 1 := ⟨k - 1, by omega⟩
        refine ⟨x :: l, ha, k + 1, by omega, by simpa using hkl, ?_⟩
        simp only [List.take_succ_cons, List.sum_cons] at hsum ⊢; omega

/-- The sum of an array drops by `i`. -/
theorem countP_step {i : Nat} {h : List (List Nat)} (hg : ∀ a ∈ h, Good a)
    (hi : ∀ a ∈ h, i ≤ a.headD 0) (n : Nat) (hn : i < n) :
    ((h.map (decFirst i)).filterMap trim).countP (fun a => decide (n - i ≤ a.sum))
      = h.countP (fun a => decide (n ≤ a.sum)) := by
  induction h with
  | nil => rfl
  | cons a h ih =>
    have ih := ih (fun a ha => hg a (by simp [ha])) (fun a ha => hi a (by simp [ha]))
    have hi' := hi a (by simp)
    have hg' := hg a (by simp)
    cases a with
    | nil => exact absurd rfl hg'.1
    | cons x l =>
      simp only [List.headD_cons] at hi'
      rw [List.map_cons]
      by_cases hx : x = i
      · subst hx
        by_cases hl : l = []
        · subst hl
          rw [List.filterMap_cons_none (by simp [trim, decFirst, zeroFirst]), List.countP_cons_of_neg, ih]
          have : [x].sum = x := by simp
          show ¬ decide (n ≤ [x].sum) = true
          rw [this, decide_eq_true_eq]
          omega
        · rw [List.filterMap_cons_some (b := l) (by simp [trim, decFirst, zeroFirst, hl]),
            List.countP_cons, List.countP_cons, ih]
          have : (decide (n - x ≤ l.sum)) = decide (n ≤ (x :: l).sum) := by
            rw [decide_eq_decide, List.sum_cons]; omega
          rw [this]
      · rw [List.filterMap_cons_some (b := (x - i) :: l)
          (by unfold trim; rw [if_neg]; · rfl
              · simp [decFirst, zeroFirst]; omega),
            List.countP_cons, List.countP_cons, ih]
        have : (decide (n - i ≤ ((x - i) :: l).sum)) = decide (n ≤ (x :: l).sum) := by
          rw [decide_eq_decide, List.sum_cons, List.sum_cons]; omega
        rw [this]

/-- Some array is too long for `n`. -/
def TooLong (h : List (List Nat)) (n : Nat) : Prop := ∃ a ∈ h, n < a.sum

theorem tooLong_iff_countP (h : List (List Nat)) (n : Nat) :
    TooLong h n ↔ 0 < h.countP (fun a => decide (n + 1 ≤ a.sum)) := by
  rw [List.countP_pos_iff]
  simp [TooLong]
  constructor <;> rintro ⟨a, h1, h2⟩ <;> exact ⟨a, h1, by omega⟩

theorem tooLong_step {i : Nat} {h : List (List Nat)} (hg : ∀ a ∈ h, Good a)
    (hi : ∀ a ∈ h, i ≤ a.headD 0) (n : Nat) (hn : i ≤ n) :
    TooLong ((h.map (decFirst i)).filterMap trim) (n - i) ↔ TooLong h n := by
  rw [tooLong_iff_countP, tooLong_iff_countP]
  have : n - i + 1 = (n + 1) - i := by omega
  rw [this, countP_step hg hi (n + 1) (by omega)]

/-- Where it must fail. -/
def Fails (h : List (List Nat)) (n : Nat) : Prop :=
  TooLong h n ∧ ¬ (Hits h n ∧ 2 ≤ h.countP (fun a => decide (n ≤ a.sum)))

/-- The pieces are cut after `n` characters. -/
def CutAt (ps : List (List α)) (n : Nat) : Prop :=
  ∃ l₁ l₂, ps = l₁ ++ l₂ ∧ l₁.flatten.length = n

theorem cutAt_cons {w : List α} {l : List (List α)} {n : Nat} :
    CutAt (w :: l) n ↔ n = 0 ∨ w.length ≤ n ∧ CutAt l (n - w.length) := by
  constructor
  · rintro ⟨l₁, l₂, h, e⟩
    cases l₁ with
    | nil => left; simpa using e.symm
    | cons a l₁ =>
      obtain ⟨rfl, rfl⟩ := List.cons.inj h
      right
      simp only [List.flatten_cons, List.length_append] at e
      exact ⟨by omega, l₁, l₂, rfl, by omega⟩
  · rintro (rfl | ⟨hw, l₁, l₂, rfl, e⟩)
    · exact ⟨[], _, rfl, rfl⟩
    · exact ⟨w :: l₁, l₂, rfl, by rw [List.flatten_cons, List.length_append]; omega⟩

/-- What a run on `s` with arrays `h` is to be. -/
def RunOK (s : List α) (h : List (List Nat)) (r : List (List α) × Option Err) : Prop :=
  (∀ p ∈ r.1, p ≠ []) ∧ r.1.flatten <+: s ∧ (r.2 = none ∨ r.2 = some .valueError) ∧
  (r.2 ≠ none ↔ Fails h s.length) ∧
  (r.2 = none → r.1.flatten = s ∧
    ∀ n, 0 < n → n < s.length → (CutAt r.1 n ↔ Hits h n))

/-- One array. -/
theorem lastLoop_spec (s : List α) : ∀ (a : List Nat) (st : Nat), st ≤ s.length → (∀ x ∈ a, 0 < x) →
    (∀ p ∈ (lastLoop s st st a).1, p ≠ []) ∧ (lastLoop s st st a).1.flatten <+: s.drop st ∧
    ((lastLoop s st st a).2 = none ∨ (lastLoop s st st a).2 = some .valueError) ∧
    ((lastLoop s st st a).2 ≠ none ↔ s.length < st + a.sum) ∧
    ((lastLoop s st st a).2 = none → (lastLoop s st st a).1.flatten = s.drop st ∧
      ∀ n, 0 < n → n < s.length - st →
        (CutAt (lastLoop s st st a).1 n ↔ ∃ k, 0 < k ∧ k ≤ a.length ∧ (a.take k).sum = n)) := by
  intro a
  induction a with
  | nil =>
    intro st hst _
    simp only [lastLoop]
    refine ⟨?_, ?_, by simp, by simp; omega, fun _ => ⟨?_, ?_⟩⟩
    · intro p hp; split at hp <;> simp_all
    · split <;> simp_all
    · split <;> simp_all
    · intro n hn hn2
      constructor
      · rw [if_neg (by simp; omega)]
        intro h
        rcases cutAt_cons.1 h with h | ⟨h, _⟩
        · omega
        · simp at h; omega
      · rintro ⟨k, h1, h2, _⟩; simp at h2; omega
  | cons x a ih =>
    intro st hst hpos
    have hx := hpos x (by simp)
    simp only [lastLoop]
    by_cases hlen : st + x > s.length
    · rw [if_pos hlen]
      refine ⟨by simp, by simp, .inr rfl, by simp; omega, by simp⟩
    · rw [if_neg hlen]
      obtain ⟨h1, h2, h3, h4, h5⟩ := ih (st + x) (by omega) (fun y hy => hpos y (by simp [hy]))
      have hw : ((s.take (st + x)).drop st).length = x := by simp; omega
      have hsplit : (s.take (st + x)).drop st ++ s.drop (st + x) = s.drop st := by
        conv => rhs; rw [← List.take_append_drop (st + x) s]
        rw [List.drop_append_of_le_length (by simp; omega)]
      refine ⟨?_, ?_, h3, ?_, ?_⟩
      · intro p hp
        rcases List.mem_cons.1 hp with rfl | hp
        · intro h; rw [h] at hw; simp at hw; omega
        · exact h1 p hp
      · rw [List.flatten_cons, ← hsplit]
        exact (List.prefix_append_right_inj _).2 h2
      · rw [h4]; simp; omega
      · intro he
        obtain ⟨h6, h7⟩ := h5 he
        refine ⟨by rw [List.flatten_cons, h6, hsplit], ?_⟩
        intro n hn hn2
        rw [cutAt_cons, hw]
        rcases Nat.lt_trichotomy n x with h | h | h
        · constructor
          · rintro (h' | ⟨h', _⟩) <;> omega
          · rintro ⟨k, hk0, hkl, hs⟩
            obtain ⟨k, rfl⟩ : ∃ k', k = k' + 1 := ⟨k - 1, by omega⟩
            simp at hs; omega
        · subst h
          refine ⟨fun _ => ⟨1, by omega, by simp, by simp⟩, fun _ => .inr ⟨by omega, ?_⟩⟩
          exact ⟨[], _, rfl, by simp⟩
        · rw [h7 (n - x) (by omega) (by omega)]
          constructor
          · rintro (h' | ⟨_, k, hk0, hkl, hs⟩)
            · omega
            · exact ⟨k + 1, by omega, by simpa using hkl, by simp; omega⟩
          · rintro ⟨k, hk0, hkl, hs⟩
            obtain ⟨k, rfl⟩ : ∃ k', k = k' + 1 := ⟨k - 1, by omega⟩
            simp at hs hkl
            refine .inr ⟨by omega, k, ?_, hkl, by omega⟩
            rcases Nat.eq_zero_or_pos k with rfl | h'
            · simp at hs; omega
            · exact h'

theorem afterLoop_spec (s : List α) (h : List (List Nat)) (hl : h.length < 2) (hg : ∀ a ∈ h, Good a) :
    RunOK s h (afterLoop s h) := by
  match h, hl with
  | [], _ =>
    refine ⟨?_, ?_, .inl rfl, by simp [afterLoop, Fails, TooLong], fun _ => ⟨?_, ?_⟩⟩
    · simp only [afterLoop]; split <;> simp_all
    · simp only [afterLoop]; split <;> simp_all
    · simp only [afterLoop]; split <;> simp_all
    · intro n hn hn2
      simp only [afterLoop]
      rw [if_neg (by simp; rintro rfl; simp at hn2)]
      rw [cutAt_cons]
      simp [Hits]; omega
  | [a], _ =>
    have hga := hg a (by simp)
    obtain ⟨h1, h2, h3, h4, h5⟩ := lastLoop_spec s a 0 (by omega) hga.2
    refine ⟨h1, by simpa [afterLoop] using h2, h3, ?_, ?_⟩
    · simp only [afterLoop]
      rw [h4]
      simp only [Fails, TooLong, List.mem_singleton, exists_eq_left, Nat.zero_add]
      constructor
      · intro h
        refine ⟨h, ?_⟩
        rintro ⟨_, h'⟩
        have := List.countP_le_length (p := fun a => decide (s.length ≤ List.sum a)) (l := [a])
        simp only [List.length_singleton] at this
        omega
      · exact fun h => h.1
    · intro he
      obtain ⟨h6, h7⟩ := h5 he
      refine ⟨by simpa [afterLoop] using h6, ?_⟩
      intro n hn hn2
      simp only [afterLoop]
      rw [h7 n hn (by omega)]
      simp [Hits]

theorem combineLoop_spec : ∀ (n : Nat) (s : List α) (h : List (List Nat)), s.length = n →
    IsHeapFrom listLt 0 h → (∀ a ∈ h, Good a) → RunOK s h (combineLoop s h) := by
  intro n
  induction n using Nat.strongRecOn with
  | _ n ih =>
    intro s h hn hh hg
    match h, hh, hg with
    | [], hh, hg => unfold combineLoop; exact afterLoop_spec s [] (by simp) hg
    | [a], hh, hg => unfold combineLoop; exact afterLoop_spec s [a] (by simp) hg
    | sm :: b :: rest, hh, hg =>
      unfold combineLoop
      dsimp only
      have hmin := Big.Heap.head_min listLt_weak sm (b :: rest) hh
      have hsm := hg sm (by simp)
      generalize hix : sm.headD 0 = i
      obtain ⟨l, rfl⟩ : ∃ l, sm = i :: l := by
        cases sm with
        | nil => exact absurd rfl hsm.1
        | cons j l => exact ⟨l, by rw [← hix]; rfl⟩
      have hi0 : 0 < i := hsm.2 i (by simp)
      have hle : ∀ a ∈ (i :: l) :: b :: rest, i ≤ a.headD 0 := by
        intro a ha
        have h1 := hmin a ha
        have h2 := (hg a ha).1
        cases a with
        | nil => exact absurd rfl h2
        | cons x m => exact head_le_of_nlt h1
      have hsumle : ∀ a ∈ (i :: l) :: b :: rest, i ≤ a.sum := by
        intro a ha
        have := hle a ha
        cases a with
        | nil => simp at this; omega
        | cons x m => simp at this ⊢; omega
      have hhit : Hits ((i :: l) :: b :: rest) i := ⟨i :: l, by simp, 1, by omega, by simp, by simp⟩
      have hnohit : ∀ m, m < i → ¬ Hits ((i :: l) :: b :: rest) m := by
        rintro m hm ⟨a, ha, k, hk0, hkl, hs⟩
        have := hle a ha
        cases a with
        | nil => simp at hkl; omega
        | cons x m' =>
          obtain ⟨k, rfl⟩ : ∃ k', k = k' + 1 := ⟨k - 1, by omega⟩
          simp at this hs; omega
      by_cases hpast : i > s.length
      · rw [if_pos hpast]
        refine ⟨by simp, by simp, .inr rfl, ?_, by simp⟩
        simp only [ne_eq, reduceCtorEq, not_false_eq_true, true_iff]
        refine ⟨⟨i :: l, by simp, by simp; omega⟩, ?_⟩
        rintro ⟨h1, _⟩
        exact hnohit _ hpast h1
      · rw [if_neg hpast]
        by_cases hemp : (s.drop i).isEmpty = true
        · rw [if_pos hemp]
          have hil : i = s.length := by simp at hemp; omega
          refine ⟨?_, ?_, .inl rfl, ?_, fun _ => ⟨?_, ?_⟩⟩
          · simp; exact ⟨by omega, by rintro rfl; simp at hil; omega⟩
          · simp [List.take_prefix]
          · simp only [ne_eq, not_true_eq_false, false_iff]
            rintro ⟨_, h2⟩
            apply h2
            refine ⟨hil ▸ hhit, ?_⟩
            have : ∀ l' : List (List Nat), (∀ a ∈ l', i ≤ a.sum) →
                l'.countP (fun a => decide (s.length ≤ a.sum)) = l'.length := by
              intro l' hl'
              rw [List.countP_eq_length]
              intro a ha; have := hl' a ha; simp; omega
            rw [this _ hsumle]; simp
          · simp [hil]
          · intro m hm hm2
            constructor
            · intro h
              rcases cutAt_cons.1 h with h | ⟨h, _⟩
              · omega
              · simp at h; omega
            · intro h; exact absurd h (hnohit m (by omega))
        · rw [if_neg hemp]
          have hemp' : i < s.length := by simp at hemp; omega
          obtain ⟨q, hq1, hq2, hq3⟩ := popLoop_spec _ (((i :: l) :: b :: rest).map (decFirst i)) rfl
            (heap_dec hh (by
              intro x hx a m e
              have := hle x hx
              rw [e] at this; simpa using this))
            (by
              intro a ha
              obtain ⟨x, hx, rfl⟩ := List.mem_map.1 ha
              have hgx := hg x hx
              cases x with
              | nil => exact absurd rfl hgx.1
              | cons y m => exact ⟨by simp [decFirst], fun z hz => hgx.2 z (by simpa [decFirst] using .inr hz)⟩)
          rw [hq1]
          dsimp only
          rw [dif_pos (by simp; omega)]
          have hgq : ∀ a ∈ q, Good a := by
            intro a ha
            obtain ⟨x, hx, htr⟩ := List.mem_filterMap.1 (hq3.mem_iff.1 ha)
            refine trim_good ?_ htr
            obtain ⟨y, hy, rfl⟩ := List.mem_map.1 hx
            have hgx := hg y hy
            cases y with
            | nil => exact absurd rfl hgx.1
            | cons y m => exact ⟨by simp [decFirst], fun z hz => hgx.2 z (by simpa [decFirst] using .inr hz)⟩
          obtain ⟨h1, h2, h3, h4, h5⟩ := ih (s.drop i).length (by simp; omega) (s.drop i) q rfl hq2 hgq
          have hsl : (s.drop i).length = s.length - i := by simp
          have htk : (s.take i).length = i := by simp; omega
          refine ⟨?_, ?_, h3, ?_, ?_⟩
          · intro p hp
            rcases List.mem_cons.1 hp with rfl | hp
            · intro h; rw [h] at htk; simp at htk; omega
            · exact h1 p hp
          · rw [List.flatten_cons]
            conv => rhs; rw [← List.take_append_drop i s]
            exact (List.prefix_append_right_inj _).2 h2
          · rw [h4, hsl]
            unfold Fails
            rw [hq3.countP_eq, countP_step hg hle _ hemp', hits_perm hq3, ← hits_step hg hle _ hemp']
            have : TooLong q (s.length - i) ↔ TooLong ((i :: l) :: b :: rest) s.length := by
              rw [← tooLong_step hg hle _ (by omega)]
              constructor <;> rintro ⟨a, ha, r⟩
              · exact ⟨a, hq3.mem_iff.1 ha, r⟩
              · exact ⟨a, hq3.mem_iff.2 ha, r⟩
            rw [this]
          · intro he
            obtain ⟨h6, h7⟩ := h5 he
            refine ⟨by rw [List.flatten_cons, h6, List.take_append_drop], ?_⟩
            intro m hm hm2
            rw [cutAt_cons, htk]
            rcases Nat.lt_trichotomy m i with h | h | h
            · constructor
              · rintro (h' | ⟨h', _⟩) <;> omega
              · intro h'; exact absurd h' (hnohit m h)
            · subst h
              exact ⟨fun _ => hhit, fun _ => .inr ⟨by omega, [], _, rfl, by simp⟩⟩
            · rw [h7 (m - i) (by omega) (by omega), hits_perm hq3, ← hits_step hg hle _ h]
              exact ⟨fun h' => by rcases h' with h' | h'; omega; exact h'.2, fun h' => .inr ⟨by omega, h'⟩⟩

end Big.Words
