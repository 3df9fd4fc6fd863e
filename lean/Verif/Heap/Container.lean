import Verif.Heap.ContainerModel
import Verif.Heap.Props
/-!
# C69: the container methods of Heap

`len`, `bool` and `in` are compared with the bag of the priority-queue specification (`SpecRun` of
C01) and with the results of later calls; `==` is compared with equality of bags and with
indistinguishability by calls.
-/
namespace Big.Heap
variable {α : Type}

/-! ## len, bool, in -/

/-- C69: after every history, `len`, `bool` and `in` describe the bag of values the history leaves. -/
theorem C69_contents {lt : α → α → Bool} (eq : α → α → Bool) (w : StrictWeak lt)
    (i : List α) (ops : List (Op α)) :
    ∃ c, SpecRun lt eq i ops (run lt eq (Heap.new lt i) ops).2 c ∧
      (run lt eq (Heap.new lt i) ops).1.len = c.length ∧
      ((run lt eq (Heap.new lt i) ops).1.bool = true ↔ c ≠ []) ∧
      ∀ o, ((run lt eq (Heap.new lt i) ops).1.contains eq o = true ↔ ∃ x ∈ c, eq x o = true) := by
  refine ⟨_, C01_heap_is_priority_queue eq w i ops, rfl, ?_, ?_⟩
  · simp [Heap.bool]
  · intro o; simp [Heap.contains]

theorem popleft_nil (lt eq : α → α → Bool) (h : Heap α) (hq : h.queue = []) :
    step lt eq h .popleft = (h, .err .indexError) := by
  simp [step, Heap.popleft, hq, heappop_nil]

theorem run_popleft_nil (lt eq : α → α → Bool) (h : Heap α) (hq : h.queue = []) (n : Nat) :
    (run lt eq h (List.replicate n .popleft)).2 = List.replicate n (.err .indexError) := by
  induction n with
  | zero => rfl
  | succ n ih => simp only [List.replicate_succ, run, popleft_nil lt eq h hq, ih]

theorem popleft_cons {lt : α → α → Bool} (eq : α → α → Bool) (w : StrictWeak lt) (h : Heap α)
    (hh : IsHeapFrom lt 0 h.queue) (hq : h.queue ≠ []) :
    ∃ v h', step lt eq h .popleft = (h', .val v) ∧ h.queue.Perm (v :: h'.queue) ∧
      IsHeapFrom lt 0 h'.queue ∧ ∀ x ∈ h.queue, lt x v = false := by
  obtain ⟨v, q, h1, h2, h3, h4, _⟩ := heappop_spec w h.queue hh hq
  exact ⟨v, ⟨q, h.version + 1⟩, by simp only [step, Heap.popleft, h1], h2, h3, h4⟩

/-- C69: `len(heap)` is the number of times popleft succeeds: that many calls return values and all
later ones raise IndexError. -/
theorem C69_len_counts_poplefts {lt eq : α → α → Bool} (w : StrictWeak lt) (h : Heap α)
    (hr : Reachable lt eq h) (n : Nat) :
    ∃ l : List α, l.length = h.len ∧ l.Perm h.queue ∧ NonDecreasing lt l ∧
      (run lt eq h (List.replicate n .popleft)).2 =
        ((l.take n).map .val ++ List.replicate (n - l.length) (.err .indexError)) := by
  have hh := Reachable.isHeap w hr
  clear hr
  generalize hk : h.queue.length = k
  induction k generalizing h n with
  | zero =>
    have hq := List.length_eq_zero_iff.1 hk
    refine ⟨[], by simp [Heap.len, hk], by simp [hq], by simp [NonDecreasing], ?_⟩
    simp [run_popleft_nil lt eq h hq]
  | succ k ih =>
    obtain ⟨v, h', h1, h2, h3, h4⟩ := popleft_cons eq w h hh (by intro e; simp [e] at hk)
    have hl := h2.length_eq
    simp at hl
    obtain ⟨l, e1, e2, e3, e4⟩ := ih h' (n - 1) h3 (by omega)
    refine ⟨v :: l, by simp [e1, Heap.len, hl], (List.Perm.cons v e2).trans h2.symm, ?_, ?_⟩
    · refine List.Pairwise.cons ?_ e3
      intro x hx
      exact h4 x (h2.symm.subset (List.mem_cons_of_mem _ (e2.subset hx)))
    · cases n with
      | zero => simp [run]
      | succ n =>
        simp only [List.replicate_succ, run, h1]
        simp only [Nat.add_sub_cancel] at e4
        rw [e4]
        simp

/-- C69: `o in heap` says whether `heap.remove(o)` would succeed. -/
theorem C69_in_iff_removable {lt eq : α → α → Bool} (w : StrictWeak lt) (h : Heap α)
    (hr : Reachable lt eq h) (o : α) :
    h.contains eq o = true ↔ (step lt eq h (.remove o)).2 ≠ .err .valueError := by
  have := ((C01_errors_leave_heap_unchanged eq w h hr (.remove o)).2.2.2.2 o)
  rw [Ne, this]
  simp [Heap.contains]

/-- C69: `bool(heap)` says whether `heap[0]` and `popleft()` would succeed, and whether `repr(heap)`
does: on an empty heap `repr` raises IndexError. -/
theorem C69_bool_and_repr {lt eq : α → α → Bool} (w : StrictWeak lt) (h : Heap α)
    (hr : Reachable lt eq h) :
    (h.bool = true ↔ (step lt eq h .popleft).2 ≠ .err .indexError) ∧
    (h.bool = true ↔ (step lt eq h .peek).2 ≠ .err .indexError) ∧
    (h.bool = false → h.repr = .error .indexError) ∧
    (h.bool = true → ∃ v, h.repr = .ok (h.len, v) ∧ (step lt eq h .peek).2 = .val v ∧
      IsLeast lt v h.queue) := by
  have hc := C01_errors_leave_heap_unchanged eq w h hr .popleft
  have hh := Reachable.isHeap w hr
  refine ⟨?_, ?_, ?_, ?_⟩
  · rw [Ne, hc.2.1]; simp [Heap.bool]
  · rw [Ne, hc.2.2.1]; simp [Heap.bool]
  · intro hb
    have : h.queue = [] := by simpa [Heap.bool] using hb
    simp [Heap.repr, this, pyIndex]
  · intro hb
    have hne : h.queue ≠ [] := by simpa [Heap.bool] using hb
    obtain ⟨a, l, hq⟩ : ∃ a l, h.queue = a :: l := by
      cases hq : h.queue with
      | nil => exact absurd hq hne
      | cons a l => exact ⟨a, l, rfl⟩
    refine ⟨a, ?_, ?_, ?_⟩
    · simp [Heap.repr, hq, pyIndex, Heap.len]
    · simp [step, Heap.getInt, hq, pyIndex]
    · rw [hq]; exact ⟨List.mem_cons_self, head_min w a l (hq ▸ hh)⟩

/-! ## == -/

/-- How many elements of a bag are equal to x. -/
def multiplicity (eq : α → α → Bool) (x : α) (c : List α) : Nat := c.countP fun y => eq y x

/-- `==` of values is an equivalence relation. -/
structure IsEquiv (eq : α → α → Bool) : Prop where
  refl : ∀ a, eq a a = true
  symm : ∀ a b, eq a b = true → eq b a = true
  trans : ∀ a b c, eq a b = true → eq b c = true → eq a c = true

/-- p does not tell equal values apart. -/
def Respects (eq : α → α → Bool) (p : α → Bool) : Prop := ∀ a b, eq a b = true → p a = p b

theorem respects_eq {eq : α → α → Bool} (e : IsEquiv eq) (x : α) : Respects eq (fun y => eq y x) := by
  intro a b h
  show eq a x = eq b x
  cases ha : eq a x
  · cases hb : eq b x
    · rfl
    · rw [e.trans _ _ _ h hb] at ha; cases ha
  · rw [e.trans _ _ _ (e.symm _ _ h) ha]

theorem listEq_countP {eq : α → α → Bool} {p : α → Bool} (hp : Respects eq p) :
    ∀ l m : List α, listEq eq l m = true → l.countP p = m.countP p
  | [], [], _ => rfl
  | a :: l, b :: m, h => by
    simp only [listEq, Bool.and_eq_true] at h
    rw [List.countP_cons, List.countP_cons, listEq_countP hp l m h.2, hp a b h.1]
  | [], _ :: _, h => by simp [listEq] at h
  | _ :: _, [], h => by simp [listEq] at h

theorem listEq_iff {eq : α → α → Bool} : ∀ l m : List α, listEq eq l m = true ↔
    l.length = m.length ∧ ∀ i (h1 : i < l.length) (h2 : i < m.length), eq l[i] m[i] = true
  | [], [] => by simp [listEq]
  | a :: l, b :: m => by
    simp only [listEq, Bool.and_eq_true, listEq_iff l m, List.length_cons]
    constructor
    · rintro ⟨h1, h2, h3⟩
      refine ⟨by omega, ?_⟩
      intro i hi hj
      cases i with
      | zero => exact h1
      | succ i => exact h3 i (by omega) (by omega)
    · rintro ⟨h1, h2⟩
      exact ⟨h2 0 (by omega) (by omega), by omega, fun i hi hj => h2 (i + 1) (by omega) (by omega)⟩
  | [], _ :: _ => by simp [listEq]
  | _ :: _, [] => by simp [listEq]

/-- Bags with the same multiplicities satisfy a predicate that respects == equally often. -/
theorem countP_of_multiplicity {eq : α → α → Bool} (e : IsEquiv eq) {p : α → Bool}
    (hp : Respects eq p) : ∀ l m : List α, (∀ x, multiplicity eq x l = multiplicity eq x m) →
      l.length = m.length ∧ l.countP p = m.countP p
  | [], m, h => by
    cases m with
    | nil => exact ⟨rfl, rfl⟩
    | cons b m => have := h b; simp [multiplicity, e.refl] at this
  | a :: l, m, h => by
    have ha := h a
    have hpos : 0 < m.countP (fun y => eq y a) := by
      show 0 < multiplicity eq a m
      rw [← ha]; simp [multiplicity, e.refl]
    obtain ⟨b, hb, hba⟩ := List.countP_pos_iff.1 hpos
    obtain ⟨s, t, rfl⟩ := List.append_of_mem hb
    have hm : (s ++ b :: t).Perm (b :: (s ++ t)) := List.perm_middle
    have ih := countP_of_multiplicity e hp l (s ++ t) (by
      intro x
      have h1 := h x
      unfold multiplicity at h1 ⊢
      have hr : eq b x = eq a x := respects_eq e x b a hba
      rw [hm.countP_eq, List.countP_cons, List.countP_cons, hr] at h1
      omega)
    rw [hm.length_eq, hm.countP_eq, List.countP_cons, List.countP_cons, hp b a hba]
    simp only [List.length_cons]
    exact ⟨by omega, by omega⟩

theorem equiv_of_ties {lt eq : α → α → Bool} (w : StrictWeak lt)
    (ht : ∀ a b, eq a b = true ↔ Equivalent lt a b) : IsEquiv eq where
  refl a := (ht a a).2 ⟨w.irrefl a, w.irrefl a⟩
  symm a b h := (ht b a).2 ⟨((ht a b).1 h).2, ((ht a b).1 h).1⟩
  trans a b c h1 h2 := by
    have h1 := (ht a b).1 h1
    have h2 := (ht b c).1 h2
    refine (ht a c).2 ⟨?_, ?_⟩
    · cases h : lt a c with
      | false => rfl
      | true => rcases w.negtrans a b c h with h | h <;> simp_all [Equivalent]
    · cases h : lt c a with
      | false => rfl
      | true => rcases w.negtrans c b a h with h | h <;> simp_all [Equivalent]

theorem respects_lt {lt eq : α → α → Bool} (w : StrictWeak lt)
    (ht : ∀ a b, eq a b = true ↔ Equivalent lt a b) (z : α) : Respects eq (fun x => !lt z x) := by
  intro a b h
  have h := (ht a b).1 h
  show (!lt z a) = (!lt z b)
  cases ha : lt z a <;> cases hb : lt z b <;> try rfl
  · rcases w.negtrans z a b hb with h' | h' <;> simp_all [Equivalent]
  · rcases w.negtrans z b a ha with h' | h' <;> simp_all [Equivalent]

/-- C69: heaps that compare equal hold every value equally often (whatever ties in the order mean). -/
theorem C69_eq_sound {lt eq : α → α → Bool} (e : IsEquiv eq) (h k : Heap α)
    (hk : h.pyEq lt eq (some k) = true) :
    h.len = k.len ∧ ∀ x, multiplicity eq x h.queue = multiplicity eq x k.queue := by
  have hp1 := pysorted_perm lt h.queue
  have hp2 := pysorted_perm lt k.queue
  refine ⟨?_, fun x => ?_⟩
  · unfold Heap.len
    rw [← hp1.length_eq, ← hp2.length_eq]
    exact ((listEq_iff _ _).1 hk).1
  · unfold multiplicity
    rw [← hp1.countP_eq, ← hp2.countP_eq]
    exact listEq_countP (respects_eq e x) _ _ hk

/-- C69: when two values are == exactly if neither is smaller, two heaps are == exactly if they hold
every value equally often, however they were built; and a heap is never == to something that is
not a heap. -/
theorem C69_eq_iff_same_bag {lt eq : α → α → Bool} (w : StrictWeak lt)
    (ht : ∀ a b, eq a b = true ↔ Equivalent lt a b) (h k : Heap α) :
    (h.pyEq lt eq (some k) = true ↔
      ∀ x, multiplicity eq x h.queue = multiplicity eq x k.queue) ∧
    h.pyEq lt eq none = false := by
  have e := equiv_of_ties w ht
  refine ⟨⟨fun hk => (C69_eq_sound e h k hk).2, fun hm => ?_⟩, rfl⟩
  have hp1 := pysorted_perm lt h.queue
  have hp2 := pysorted_perm lt k.queue
  have hc : ∀ z, (pysorted lt h.queue).countP (fun x => !lt z x) =
      (pysorted lt k.queue).countP (fun x => !lt z x) := by
    intro z
    rw [hp1.countP_eq, hp2.countP_eq]
    exact (countP_of_multiplicity e (respects_lt w ht z) _ _ hm).2
  have hl : (pysorted lt h.queue).length = (pysorted lt k.queue).length := by
    rw [hp1.length_eq, hp2.length_eq]
    exact (countP_of_multiplicity e (p := fun _ => true) (fun _ _ _ => rfl) _ _ hm).1
  refine (listEq_iff _ _).2 ⟨hl, fun i h1 h2 => ?_⟩
  have s1 := pysorted_sorted w h.queue
  have s2 := pysorted_sorted w k.queue
  exact (ht _ _).2 ⟨sorted_unique_aux w s1 s2 i h1 h2 (hc _),
    sorted_unique_aux w s2 s1 i h2 h1 (hc _).symm⟩

/-- C69: a copy is == to the original, even when ties are not ==. -/
theorem C69_copy_eq {lt eq : α → α → Bool} (e : IsEquiv eq) (h : Heap α) :
    h.pyEq lt eq (some h.copy) = true :=
  (listEq_iff _ _).2 ⟨rfl, fun _ _ _ => e.refl _⟩

/-- C69: `==` of heaps is an equivalence relation. -/
theorem C69_eq_equivalence {lt eq : α → α → Bool} (e : IsEquiv eq) (h k m : Heap α) :
    h.pyEq lt eq (some h) = true ∧
    (h.pyEq lt eq (some k) = true → k.pyEq lt eq (some h) = true) ∧
    (h.pyEq lt eq (some k) = true → k.pyEq lt eq (some m) = true →
      h.pyEq lt eq (some m) = true) := by
  refine ⟨C69_copy_eq e h, fun h1 => ?_, fun h1 h2 => ?_⟩
  · obtain ⟨a, b⟩ := (listEq_iff _ _).1 h1
    exact (listEq_iff _ _).2 ⟨a.symm, fun i x y => e.symm _ _ (b i y x)⟩
  · obtain ⟨a, b⟩ := (listEq_iff _ _).1 h1
    obtain ⟨c, d⟩ := (listEq_iff _ _).1 h2
    exact (listEq_iff _ _).2 ⟨a.trans c, fun i x y => e.trans _ _ _ (b i x (by omega)) (d i (by omega) y)⟩

/-! ## == and later calls -/

/-- The order is total: only equal values tie; and `==` is equality. -/
structure Total (lt eq : α → α → Bool) : Prop where
  tie : ∀ a b, Equivalent lt a b → a = b
  eq_iff : ∀ a b, eq a b = true ↔ a = b

theorem Total.ties {lt eq : α → α → Bool} (w : StrictWeak lt) (t : Total lt eq) (a b : α) :
    eq a b = true ↔ Equivalent lt a b :=
  ⟨fun h => (t.eq_iff a b).1 h ▸ ⟨w.irrefl _, w.irrefl _⟩, fun h => (t.eq_iff a b).2 (t.tie a b h)⟩

theorem listEq_eq {lt eq : α → α → Bool} (t : Total lt eq) (l m : List α) :
    listEq eq l m = true ↔ l = m := by
  rw [listEq_iff]
  constructor
  · rintro ⟨h1, h2⟩
    exact List.ext_getElem h1 fun i a b => (t.eq_iff _ _).1 (h2 i a b)
  · rintro rfl
    exact ⟨rfl, fun i _ _ => (t.eq_iff _ _).2 rfl⟩

theorem sorted_eq {lt eq : α → α → Bool} (w : StrictWeak lt) (t : Total lt eq) {l m : List α}
    (h1 : NonDecreasing lt l) (h2 : NonDecreasing lt m) (hp : l.Perm m) : l = m :=
  List.ext_getElem hp.length_eq fun i a b => t.tie _ _ (sorted_unique w h1 h2 hp i a b)

/-- C69: for totally ordered values, `==` means: the same bag. -/
theorem C69_eq_iff_perm {lt eq : α → α → Bool} (w : StrictWeak lt) (t : Total lt eq)
    (h k : Heap α) : h.pyEq lt eq (some k) = true ↔ h.queue.Perm k.queue := by
  show listEq eq (pysorted lt h.queue) (pysorted lt k.queue) = true ↔ _
  rw [listEq_eq t]
  constructor
  · intro e
    exact (pysorted_perm lt h.queue).symm.trans (e ▸ pysorted_perm lt k.queue)
  · intro hp
    exact sorted_eq w t (pysorted_sorted w _) (pysorted_sorted w _)
      ((pysorted_perm lt _).trans (hp.trans (pysorted_perm lt _).symm))

theorem least_unique {lt eq : α → α → Bool} (t : Total lt eq) {c d : List α} {u v : α}
    (hp : c.Perm d) (hu : IsLeast lt u c) (hv : IsLeast lt v d) : u = v :=
  t.tie u v ⟨hv.2 u (hp.subset hu.1), hu.2 v (hp.symm.subset hv.1)⟩

/-- The specification is deterministic when values are totally ordered. -/
theorem specStep_det {lt eq : α → α → Bool} (t : Total lt eq) {c d : List α}
    (hp : c.Perm d) {op : Op α} {o1 o2 : Out α} {c' d' : List α}
    (h1 : SpecStep lt eq c op o1 c') (h2 : SpecStep lt eq d op o2 d') : o1 = o2 ∧ c'.Perm d' := by
  cases h1 with
  | append => cases h2; exact ⟨rfl, hp.cons _⟩
  | extend => cases h2; exact ⟨rfl, hp.append_left _⟩
  | clear => cases h2; exact ⟨rfl, .refl _⟩
  | remove _ o v c' he hc =>
    cases h2 with
    | remove _ _ v2 _ he2 hd =>
      have e1 := (t.eq_iff _ _).1 he
      have e2 := (t.eq_iff _ _).1 he2
      subst e1; subst e2
      exact ⟨rfl, (List.perm_cons _).1 (hc.symm.trans (hp.trans hd))⟩
    | removeAbsent _ _ ha =>
      have := ha v (hp.subset (hc.symm.subset List.mem_cons_self))
      rw [he] at this; cases this
  | removeAbsent _ o ha =>
    cases h2 with
    | remove _ _ v2 _ he2 hd =>
      have := ha v2 (hp.symm.subset (hd.symm.subset List.mem_cons_self))
      rw [he2] at this; cases this
    | removeAbsent _ _ ha2 => exact ⟨rfl, hp⟩
  | popleft _ v _ hl hc =>
    cases h2 with
    | popleft _ v2 _ hl2 hd =>
      have := least_unique t hp hl hl2
      subst this
      exact ⟨rfl, (List.perm_cons _).1 (hc.symm.trans (hp.trans hd))⟩
    | popleftEmpty => have := hp.subset hl.1; cases this
  | popleftEmpty =>
    cases h2 with
    | popleft _ v2 _ hl2 hd => have := hp.symm.subset hl2.1; cases this
    | popleftEmpty => exact ⟨rfl, .refl _⟩
  | appendAndPopleft _ o v _ hl hc =>
    cases h2 with
    | appendAndPopleft _ _ v2 _ hl2 hd =>
      have := least_unique t (hp.cons o) hl hl2
      subst this
      exact ⟨rfl, (List.perm_cons _).1 (hc.symm.trans ((hp.cons o).trans hd))⟩
  | popleftAndAppend _ o v _ hl hc =>
    cases h2 with
    | popleftAndAppend _ _ v2 _ hl2 hd =>
      have := least_unique t hp hl hl2
      subst this
      exact ⟨rfl, ((List.perm_cons _).1 (hc.symm.trans (hp.trans hd))).cons o⟩
    | popleftAndAppendEmpty => have := hp.subset hl.1; cases this
  | popleftAndAppendEmpty o =>
    cases h2 with
    | popleftAndAppend _ _ v2 _ hl2 hd => have := hp.symm.subset hl2.1; cases this
    | popleftAndAppendEmpty => exact ⟨rfl, .refl _⟩
  | peek _ v hl =>
    cases h2 with
    | peek _ v2 hl2 => exact ⟨by rw [least_unique t hp hl hl2], hp⟩
    | peekEmpty => have := hp.subset hl.1; cases this
  | peekEmpty =>
    cases h2 with
    | peek _ v2 hl2 => have := hp.symm.subset hl2.1; cases this
    | peekEmpty => exact ⟨rfl, .refl _⟩

theorem specRun_det {lt eq : α → α → Bool} (t : Total lt eq) {ops : List (Op α)} :
    ∀ {c d : List α} {o1 o2 : List (Out α)} {c' d' : List α}, c.Perm d →
      SpecRun lt eq c ops o1 c' → SpecRun lt eq d ops o2 d' → o1 = o2 ∧ c'.Perm d' := by
  induction ops with
  | nil =>
    intro c d o1 o2 c' d' hp h1 h2
    cases h1 with
    | nil p => cases h2 with | nil q => exact ⟨rfl, p.symm.trans (hp.trans q)⟩
  | cons op ops ih =>
    intro c d o1 o2 c' d' hp h1 h2
    cases h1 with
    | cons p s r =>
      cases h2 with
      | cons p2 s2 r2 =>
        obtain ⟨e1, e2⟩ := specStep_det t (p.symm.trans (hp.trans p2)) s s2
        obtain ⟨e3, e4⟩ := ih e2 r r2
        exact ⟨by rw [e1, e3], e4⟩

/-- C69: for totally ordered values, two heaps are == exactly if no sequence of calls tells them
apart: every history returns the same values and exceptions on both; and then they are still ==
afterwards. -/
theorem C69_eq_iff_indistinguishable {lt eq : α → α → Bool} (w : StrictWeak lt) (t : Total lt eq)
    (h k : Heap α) (hr : Reachable lt eq h) (kr : Reachable lt eq k) :
    (h.pyEq lt eq (some k) = true ↔ ∀ ops, (run lt eq h ops).2 = (run lt eq k ops).2) ∧
    (h.pyEq lt eq (some k) = true →
      ∀ ops, (run lt eq h ops).1.pyEq lt eq (some (run lt eq k ops).1) = true) := by
  have det : h.queue.Perm k.queue → ∀ ops, (run lt eq h ops).2 = (run lt eq k ops).2 ∧
      (run lt eq h ops).1.queue.Perm (run lt eq k ops).1.queue := by
    intro hp ops
    exact specRun_det t hp (run_refines eq w ops h (Reachable.isHeap w hr) _ (.refl _))
      (run_refines eq w ops k (Reachable.isHeap w kr) _ (.refl _))
  refine ⟨⟨fun he ops => (det ((C69_eq_iff_perm w t h k).1 he) ops).1, fun ho => ?_⟩,
    fun he ops => (C69_eq_iff_perm w t _ _).2 (det ((C69_eq_iff_perm w t h k).1 he) ops).2⟩
  rw [C69_eq_iff_perm w t]
  obtain ⟨l, l1, l2, l3, l4⟩ := C69_len_counts_poplefts w h hr (h.len + k.len)
  obtain ⟨m, m1, m2, m3, m4⟩ := C69_len_counts_poplefts w k kr (h.len + k.len)
  have e := ho (List.replicate (h.len + k.len) .popleft)
  rw [l4, m4, List.take_of_length_le (by omega), List.take_of_length_le (by omega)] at e
  have ev := congrArg (fun x : List (Out α) => x.filterMap fun o => match o with
    | .val v => some v | _ => none) e
  have f : ∀ (x : List α) (n : Nat), (x.map Out.val ++ List.replicate n (Out.err .indexError)).filterMap
      (fun o : Out α => match o with | .val v => some v | _ => none) = x := by
    intro x n
    rw [List.filterMap_append, List.filterMap_map, List.filterMap_replicate_of_none rfl]
    simp [Function.comp_def]
  simp only [f] at ev
  subst ev
  exact l2.symm.trans m2

/-! ## Ties that are not == -/

/-- Values (priority, name) ordered by priority alone. -/
def prioLt (a b : Nat × Nat) : Bool := decide (a.1 < b.1)

theorem prioLt_strictWeak : StrictWeak prioLt :=
  ⟨by intro a b; simp [prioLt]; omega, by intro a b c; simp [prioLt]; omega⟩

/-- C69: with values of equal priority that are not ==, two heaps holding the same values can fail
to be ==, depending on the order the values were added in. -/
theorem C69_eq_ties_differ :
    let h := Heap.new prioLt [(1, 0), (1, 1)]
    let k := Heap.new prioLt [(1, 1), (1, 0)]
    h.queue.Perm k.queue ∧ h.pyEq prioLt (· == ·) (some k) = false := by
  have e1 : (Heap.new prioLt [(1, 0), (1, 1)]).queue = [(1, 1), (1, 0)] := by
    simp [Heap.new, heapify, heapifyFrom, siftup, siftupLoop, siftdownLoop, smallerChild, prioLt]
  have e2 : (Heap.new prioLt [(1, 1), (1, 0)]).queue = [(1, 0), (1, 1)] := by
    simp [Heap.new, heapify, heapifyFrom, siftup, siftupLoop, siftdownLoop, smallerChild, prioLt]
  refine ⟨by rw [e1, e2]; exact List.Perm.swap _ _ _, ?_⟩
  have s1 : pysorted prioLt [(1, 1), (1, 0)] = [(1, 1), (1, 0)] :=
    List.mergeSort_of_pairwise (by simp [prioLt])
  have s2 : pysorted prioLt [(1, 0), (1, 1)] = [(1, 0), (1, 1)] :=
    List.mergeSort_of_pairwise (by simp [prioLt])
  simp only [Heap.pyEq, Heap.sortedQueue, e1, e2, s1, s2]
  decide

/-! ## Examples: the hypotheses are met -/

theorem natLt_total : Total natLt (· == ·) :=
  ⟨by intro a b; simp [Equivalent, natLt]; omega, by simp⟩

/-- Two heaps with different histories: Heap([3, 1, 2]) and Heap([2, 5]) after append(1), append(3)
and remove(5). -/
example : (Heap.new natLt [3, 1, 2]).pyEq natLt (· == ·)
    (some (run natLt (· == ·) (Heap.new natLt [2, 5]) [.append 1, .append 3, .remove 5]).1) = true := by
  rw [C69_eq_iff_perm natLt_strictWeak natLt_total]
  have h1 := (new_heap natLt_strictWeak [3, 1, 2]).2
  have h2 := C01_heap_is_priority_queue (· == ·) natLt_strictWeak [2, 5]
    [.append 1, .append 3, .remove 5]
  have h3 : SpecRun natLt (· == ·) [2, 5] [.append 1, .append 3, .remove 5] [.none, .none, .none]
      [3, 1, 2] :=
    .cons (.refl _) (.append _ 1) (.cons (.refl _) (.append _ 3) (.cons (.refl _)
      (.remove _ 5 5 [3, 1, 2] rfl (by decide)) (.nil (.refl _))))
  exact h1.trans (specRun_det natLt_total (.refl _) h3 h2).2

/-- They are reachable, so no calls tell them apart. -/
example : Reachable natLt (· == ·)
    (run natLt (· == ·) (Heap.new natLt [2, 5]) [.append 1, .append 3, .remove 5]).1 :=
  .step _ (.step _ (.step _ (.new _)))

example : IsEquiv (fun a b : Nat × Nat => a == b) :=
  ⟨by simp, by intro a b h; simp_all, by intro a b c h1 h2; simp_all⟩

example : (Heap.new natLt [3, 1, 2]).len = 3 ∧ (Heap.new natLt [3, 1, 2]).bool = true ∧
    (Heap.new natLt [3, 1, 2]).contains (· == ·) 2 = true ∧
    (Heap.new natLt [3, 1, 2]).contains (· == ·) 7 = false ∧
    (Heap.new natLt ([] : List Nat)).repr = .error .indexError := by
  have e : (Heap.new natLt [3, 1, 2]).queue = [1, 3, 2] := by
    simp [Heap.new, heapify, heapifyFrom, siftup, siftupLoop, siftdownLoop, smallerChild, natLt]
  simp only [Heap.len, Heap.bool, Heap.contains, Heap.repr, e]
  simp [Heap.new, pyIndex]

end Big.Heap
