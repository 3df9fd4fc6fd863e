import Verif.BoundInner.Model
/-! # C3 and bound inner classes -/
namespace Big.BoundInner

/-- C3's merge, as a relation. -/
inductive Merge : List (List Cls) → List Cls → Prop
  | nil {ls} : (∀ l ∈ ls, l = []) → Merge ls []
  | cons {ls h r} : pick ls = some h → Merge (ls.map (pop h)) r → Merge ls (h :: r)

theorem all_isEmpty {ls : List (List Cls)} : ls.all List.isEmpty = true ↔ ∀ l ∈ ls, l = [] := by
  simp [List.all_eq_true]

theorem merge_sound : ∀ (n : Nat) (ls : List (List Cls)) (r : List Cls), merge n ls = some r → Merge ls r
  | 0, ls, r, h => by
    simp only [merge] at h
    split at h
    · rename_i he; cases h; exact .nil (all_isEmpty.1 he)
    · cases h
  | n + 1, ls, r, h => by
    simp only [merge] at h
    split at h
    · rename_i he; cases h; exact .nil (all_isEmpty.1 he)
    · split at h
      · cases h
      · rename_i k hk
        rw [Option.map_eq_some_iff] at h
        obtain ⟨r', hr, rfl⟩ := h
        exact .cons hk (merge_sound n _ _ hr)

/-- What `pick` picks. -/
theorem pick_spec {ls : List (List Cls)} {h : Cls} : pick ls = some h ↔
    ∃ pre l post, ls = pre ++ (h :: l) :: post ∧ (∀ m ∈ ls, h ∉ m.tail) ∧
      ∀ p ∈ pre, ∀ x, p.head? = some x → ∃ m ∈ ls, x ∈ m.tail := by
  have key : ∀ (qs : List (List Cls)), (qs.filterMap List.head?).find? (fun h => ls.all fun l => !l.tail.contains h) = some h ↔
      ∃ pre l post, qs = pre ++ (h :: l) :: post ∧ (∀ m ∈ ls, h ∉ m.tail) ∧
        ∀ p ∈ pre, ∀ x, p.head? = some x → ∃ m ∈ ls, x ∈ m.tail := by
    intro qs
    induction qs with
    | nil => simp
    | cons q qs ih =>
      cases q with
      | nil =>
        rw [List.filterMap_cons_none (by rfl), ih]
        constructor
        · rintro ⟨pre, l, post, rfl, h1, h2⟩
          refine ⟨[] :: pre, l, post, rfl, h1, ?_⟩
          intro p hp x hx
          cases hp with
          | head => cases hx
          | tail _ hp => exact h2 p hp x hx
        · rintro ⟨pre, l, post, hq, h1, h2⟩
          cases pre with
          | nil => cases hq
          | cons p pre =>
            obtain ⟨rfl, rfl⟩ := List.cons.inj hq
            exact ⟨pre, l, post, rfl, h1, fun p hp => h2 p (.tail _ hp)⟩
      | cons a q =>
        rw [List.filterMap_cons_some (b := a) (by rfl), List.find?_cons]
        cases hb : (ls.all fun l => !l.tail.contains a) with
        | true =>
          have hb' : ∀ m ∈ ls, a ∉ m.tail := by simpa [List.all_eq_true] using hb
          constructor
          · intro h; cases h
            exact ⟨[], q, qs, rfl, hb', by simp⟩
          · rintro ⟨pre, l, post, hq, h1, h2⟩
            cases pre with
            | nil => cases hq; rfl
            | cons p pre =>
              obtain ⟨rfl, rfl⟩ := List.cons.inj hq
              obtain ⟨m, hm, hx⟩ := h2 _ (.head _) a rfl
              exact absurd hx (hb' m hm)
        | false =>
          have hb' : ∃ m ∈ ls, a ∈ m.tail := by simpa [List.all_eq_false] using hb
          dsimp only
          rw [ih]
          constructor
          · rintro ⟨pre, l, post, rfl, h1, h2⟩
            refine ⟨(a :: q) :: pre, l, post, rfl, h1, ?_⟩
            intro p hp x hx
            cases hp with
            | head => cases hx; exact hb'
            | tail _ hp => exact h2 p hp x hx
          · rintro ⟨pre, l, post, hq, h1, h2⟩
            cases pre with
            | nil =>
              cases hq
              obtain ⟨m, hm, hx⟩ := hb'
              exact absurd hx (h1 m hm)
            | cons p pre =>
              obtain ⟨rfl, rfl⟩ := List.cons.inj hq
              exact ⟨pre, l, post, rfl, h1, fun p hp => h2 p (.tail _ hp)⟩
  exact key ls

theorem pop_length_le (h : Cls) (l : List Cls) : (pop h l).length ≤ l.length := by
  unfold pop; split
  · cases l <;> simp
  · exact Nat.le_refl _

theorem sum_pop_le (h : Cls) (ls : List (List Cls)) : ((ls.map (pop h)).map List.length).sum ≤ (ls.map List.length).sum := by
  induction ls with
  | nil => simp
  | cons l ls ih => simp only [List.map_cons, List.sum_cons]; have := pop_length_le h l; omega

theorem sum_pop_lt {h : Cls} {ls : List (List Cls)} {l : List Cls} (hl : h :: l ∈ ls) :
    ((ls.map (pop h)).map List.length).sum < (ls.map List.length).sum := by
  induction ls with
  | nil => cases hl
  | cons q ls ih =>
    simp only [List.map_cons, List.sum_cons]
    cases hl with
    | head =>
      have h1 := sum_pop_le h ls
      simp only [pop, List.head?_cons, if_true, List.tail_cons, List.length_cons] at *
      omega
    | tail _ hl => have := ih hl; have := pop_length_le h q; omega

theorem merge_complete {ls : List (List Cls)} {r : List Cls} (hm : Merge ls r) :
    ∀ n, (ls.map List.length).sum ≤ n → merge n ls = some r := by
  induction hm with
  | nil he =>
    intro n _
    have := all_isEmpty.2 he
    cases n <;> simp only [merge] <;> rw [if_pos this]
  | @cons ls h r hp _ ih =>
    intro n hn
    obtain ⟨pre, l, post, hls, -, -⟩ := pick_spec.1 hp
    have hmem : h :: l ∈ ls := by rw [hls]; simp
    have hlt := sum_pop_lt hmem
    cases n with
    | zero => omega
    | succ n =>
      have hne : ¬ ls.all List.isEmpty = true := by
        rw [all_isEmpty]; intro hall; cases hall _ hmem
      simp only [merge]
      rw [if_neg hne, hp]
      dsimp only
      rw [ih n (by omega)]
      rfl

theorem merge_iff (ls : List (List Cls)) (r : List Cls) :
    merge (ls.map List.length).sum ls = some r ↔ Merge ls r :=
  ⟨merge_sound _ _ _, fun h => merge_complete h _ (Nat.le_refl _)⟩

theorem mem_pop {h x : Cls} {l : List Cls} (hx : x ∈ pop h l) : x ∈ l := by
  unfold pop at hx; split at hx
  · exact List.mem_of_mem_tail hx
  · exact hx

theorem mem_of_mem_pop {h x : Cls} {l : List Cls} (hx : x ∈ l) : x = h ∨ x ∈ pop h l := by
  unfold pop
  cases l with
  | nil => cases hx
  | cons a l =>
    by_cases ha : a = h
    · subst ha
      rw [if_pos (by rfl)]
      cases hx with
      | head => exact .inl rfl
      | tail _ hx => exact .inr hx
    · rw [if_neg (by simp [ha])]; exact .inr hx

theorem nodup_pop {h : Cls} {l : List Cls} (hl : l.Nodup) : (pop h l).Nodup := by
  unfold pop; split
  · cases l with
    | nil => exact hl
    | cons a l => exact (List.nodup_cons.1 hl).2
  · exact hl

theorem merge_mem {ls : List (List Cls)} {r : List Cls} (hm : Merge ls r) (x : Cls) : x ∈ r ↔ ∃ l ∈ ls, x ∈ l := by
  induction hm with
  | nil he =>
    constructor
    · intro h; cases h
    · rintro ⟨l, hl, hx⟩; rw [he l hl] at hx; cases hx
  | @cons ls h r hp _ ih =>
    obtain ⟨pre, l, post, hls, -, -⟩ := pick_spec.1 hp
    rw [List.mem_cons, ih]
    constructor
    · rintro (rfl | ⟨q, hq, hx⟩)
      · exact ⟨x :: l, by rw [hls]; simp, .head _⟩
      · obtain ⟨m, hm, rfl⟩ := List.mem_map.1 hq
        exact ⟨m, hm, mem_pop hx⟩
    · rintro ⟨m, hm, hx⟩
      rcases mem_of_mem_pop (h := h) hx with h | h
      · exact .inl h
      · exact .inr ⟨_, List.mem_map_of_mem hm, h⟩

/-- After `pick`, what was picked is nowhere in the lists. -/
theorem not_mem_popped {ls : List (List Cls)} {h : Cls} (hp : pick ls = some h) {l : List Cls} (hl : l ∈ ls) :
    h ∉ pop h l := by
  obtain ⟨_, _, _, -, ht, -⟩ := pick_spec.1 hp
  have := ht l hl
  unfold pop
  split
  · exact this
  · rename_i hh
    cases l with
    | nil => simp
    | cons a l =>
      intro hm
      cases hm with
      | head => exact hh rfl
      | tail _ hm => exact this hm

theorem merge_nodup {ls : List (List Cls)} {r : List Cls} (hm : Merge ls r) : r.Nodup := by
  induction hm with
  | nil => exact List.nodup_nil
  | @cons ls h r hp hm' ih =>
    refine List.nodup_cons.2 ⟨?_, ih⟩
    intro hx
    obtain ⟨q, hq, hx⟩ := (merge_mem hm' h).1 hx
    obtain ⟨l, hl, rfl⟩ := List.mem_map.1 hq
    exact not_mem_popped hp hl hx

/-- The merged lists are in order in the result. -/
theorem merge_sublist {ls : List (List Cls)} {r : List Cls} (hm : Merge ls r) : ∀ l ∈ ls, l.Sublist r := by
  induction hm with
  | nil he => intro l hl; rw [he l hl]; exact List.Sublist.refl _
  | @cons ls h r hp _ ih =>
    intro l hl
    have h1 := ih _ (List.mem_map_of_mem (f := pop h) hl)
    unfold pop at h1
    split at h1
    · rename_i hh
      cases l with
      | nil => cases hh
      | cons a l => cases hh; exact h1.cons_cons _
    · exact h1.cons _

/-! ### Adding the bound version of a class right before the class -/

/-- `k`, preceded by its bound version if it has one. -/
def exp1 (p : Cls → Option Cls) (k : Cls) : List Cls := match p k with | some k' => [k', k] | none => [k]

/-- An MRO with the bound version of each class right before the class. -/
def expand (p : Cls → Option Cls) (l : List Cls) : List Cls := l.flatMap (exp1 p)

/-- The bound version of a class, if it has one. -/
def rep (p : Cls → Option Cls) (k : Cls) : Cls := (p k).getD k

/-- Bound versions are new classes, different for different classes. -/
structure Fresh (p : Cls → Option Cls) (N : Nat) : Prop where
  new : ∀ {k k'}, k < N → p k = some k' → N ≤ k'
  inj : ∀ {j k k'}, j < N → k < N → p j = some k' → p k = some k' → j = k

section
variable {p : Cls → Option Cls} {N : Nat} (hF : Fresh p N)

theorem rep_cases (p : Cls → Option Cls) (k : Cls) : (p k = none ∧ rep p k = k) ∨ (∃ k', p k = some k' ∧ rep p k = k') := by
  unfold rep
  cases p k <;> simp

include hF in
theorem rep_inj {j k : Cls} (hj : j < N) (hk : k < N) (h : rep p j = rep p k) : j = k := by
  rcases rep_cases p j with ⟨h1, h1'⟩ | ⟨j', h1, h1'⟩ <;> rcases rep_cases p k with ⟨h2, h2'⟩ | ⟨k', h2, h2'⟩
  · omega
  · have := hF.new hk h2; omega
  · have := hF.new hj h1; omega
  · have : j' = k' := by omega
    subst this
    exact hF.inj hj hk h1 h2

theorem expand_cons (p : Cls → Option Cls) (k : Cls) (l : List Cls) : expand p (k :: l) = exp1 p k ++ expand p l := rfl

theorem expand_nil (p : Cls → Option Cls) : expand p [] = [] := rfl

theorem head_expand (p : Cls → Option Cls) (l : List Cls) : (expand p l).head? = l.head?.map (rep p) := by
  cases l with
  | nil => rfl
  | cons k l =>
    rw [expand_cons, exp1]
    rcases rep_cases p k with ⟨h2, h2'⟩ | ⟨k', h2, h2'⟩ <;> simp [h2, h2']

include hF in
theorem mem_expand_old {l : List Cls} {k : Cls} (hl : ∀ x ∈ l, x < N) (hk : k < N) : k ∈ expand p l ↔ k ∈ l := by
  induction l with
  | nil => simp [expand_nil]
  | cons j l ih =>
    have ihh := ih fun x hx => hl x (.tail _ hx)
    rw [expand_cons, List.mem_append, ihh, List.mem_cons, exp1]
    cases hj : p j with
    | none => simp
    | some j' =>
      have := hF.new (hl j (.head _)) hj
      simp only [List.mem_cons, List.not_mem_nil, or_false]
      constructor
      · rintro ((h | h) | h)
        · omega
        · exact .inl h
        · exact .inr h
      · rintro (h | h)
        · exact .inl (.inr h)
        · exact .inr h

include hF in
theorem mem_expand_new {l : List Cls} {k k' : Cls} (hl : ∀ x ∈ l, x < N) (hk : k < N) (hp : p k = some k') :
    k' ∈ expand p l ↔ k ∈ l := by
  have hk' := hF.new hk hp
  induction l with
  | nil => simp [expand_nil]
  | cons j l ih =>
    have ihh : (k' ∈ expand p l ↔ k ∈ l) := ih fun x hx => hl x (.tail _ hx)
    have hjN := hl j (.head _)
    rw [expand_cons, List.mem_append, ihh, List.mem_cons, exp1]
    cases hj : p j with
    | none =>
      simp only [List.mem_cons, List.not_mem_nil, or_false]
      constructor
      · rintro (h | h)
        · omega
        · exact .inr h
      · rintro (h | h)
        · subst h; rw [hj] at hp; cases hp
        · exact .inr h
    | some j' =>
      simp only [List.mem_cons, List.not_mem_nil, or_false]
      constructor
      · rintro ((h | h) | h)
        · subst h; exact .inl (hF.inj hk hjN hp hj)
        · omega
        · exact .inr h
      · rintro (h | h)
        · subst h; rw [hj] at hp; cases hp; exact .inl (.inl rfl)
        · exact .inr h

include hF in
theorem rep_mem_expand_tail {l : List Cls} {k : Cls} (hl : ∀ x ∈ l, x < N) (hk : k < N) :
    rep p k ∈ (expand p l).tail ↔ k ∈ l.tail := by
  cases l with
  | nil => simp [expand_nil]
  | cons j l =>
    have hl' : ∀ x ∈ l, x < N := fun x hx => hl x (.tail _ hx)
    have hjN := hl j (.head _)
    rw [expand_cons, exp1]
    rcases rep_cases p k with ⟨h2, h2'⟩ | ⟨k', h2, h2'⟩
    · rw [h2']
      cases hj : p j with
      | none => simpa using mem_expand_old hF hl' hk
      | some j' =>
        simp only [List.cons_append, List.nil_append, List.tail_cons, List.mem_cons, mem_expand_old hF hl' hk]
        constructor
        · rintro (h | h)
          · subst h; rw [hj] at h2; cases h2
          · exact h
        · exact .inr
    · rw [h2']
      have := hF.new hk h2
      cases hj : p j with
      | none => simpa using mem_expand_new hF hl' hk h2
      | some j' =>
        simp only [List.cons_append, List.nil_append, List.tail_cons, List.mem_cons, mem_expand_new hF hl' hk h2]
        constructor
        · rintro (h | h)
          · omega
          · exact h
        · exact .inr

include hF in
theorem rep_mem_map_tail {l : List Cls} {k : Cls} (hl : ∀ x ∈ l, x < N) (hk : k < N) :
    rep p k ∈ (l.map (rep p)).tail ↔ k ∈ l.tail := by
  rw [← List.map_tail, List.mem_map]
  constructor
  · rintro ⟨j, hj, he⟩
    rw [← rep_inj hF (hl j (List.mem_of_mem_tail hj)) hk he]
    exact hj
  · intro h; exact ⟨k, h, rfl⟩

include hF in
theorem pop_map_rep {l : List Cls} {k : Cls} (hl : ∀ x ∈ l, x < N) (hk : k < N) :
    pop (rep p k) (l.map (rep p)) = (pop k l).map (rep p) := by
  cases l with
  | nil => simp [pop]
  | cons j l =>
    by_cases hjk : j = k
    · subst hjk; simp [pop]
    · have : rep p j ≠ rep p k := fun h => hjk (rep_inj hF (hl j (.head _)) hk h)
      simp [pop, hjk, this]

include hF in
theorem pop_expand_none {l : List Cls} {k : Cls} (hl : ∀ x ∈ l, x < N) (hk : k < N) (hp : p k = none) :
    pop k (expand p l) = expand p (pop k l) := by
  cases l with
  | nil => simp [pop, expand_nil]
  | cons j l =>
    by_cases hjk : j = k
    · subst hjk
      simp [pop, expand_cons, exp1, hp]
    · have h1 : (expand p (j :: l)).head? ≠ some k := by
        rw [head_expand]
        have : rep p j ≠ rep p k := fun h => hjk (rep_inj hF (hl j (.head _)) hk h)
        rw [show rep p k = k by simp [rep, hp]] at this
        simpa using this
      unfold pop
      rw [if_neg h1, if_neg (by simpa using hjk)]

include hF in
theorem pop_expand_some {l : List Cls} {k k' : Cls} (hl : ∀ x ∈ l, x < N) (hk : k < N) (hp : p k = some k') :
    (pop k' (expand p l) = (if l.head? = some k then k :: expand p l.tail else expand p l)) ∧
    pop k (pop k' (expand p l)) = expand p (pop k l) := by
  have h1 : pop k' (expand p l) = (if l.head? = some k then k :: expand p l.tail else expand p l) := by
    cases l with
    | nil => simp [pop, expand_nil]
    | cons j l =>
      by_cases hjk : j = k
      · subst hjk
        simp [pop, expand_cons, exp1, hp]
      · have h1 : (expand p (j :: l)).head? ≠ some k' := by
          rw [head_expand]
          have : rep p j ≠ rep p k := fun h => hjk (rep_inj hF (hl j (.head _)) hk h)
          rw [show rep p k = k' by simp [rep, hp]] at this
          simpa using this
        unfold pop
        rw [if_neg h1, if_neg (by simpa using hjk)]
  refine ⟨h1, ?_⟩
  rw [h1]
  by_cases hh : l.head? = some k
  · rw [if_pos hh]
    unfold pop
    rw [if_pos hh, if_pos (by rfl)]
    rfl
  · rw [if_neg hh]
    unfold pop
    rw [if_neg hh, if_neg]
    rw [head_expand]
    cases l with
    | nil => simp
    | cons j l =>
      simp only [List.head?_cons, Option.map_some, Option.some.injEq]
      rcases rep_cases p j with ⟨h2, h2'⟩ | ⟨j', h2, h2'⟩
      · rw [h2']; intro h; subst h; rw [h2] at hp; cases hp
      · have := hF.new (hl j (.head _)) h2; omega

include hF in
/-- C3's merge commutes with the insertion of bound versions. -/
theorem merge_expand {ls : List (List Cls)} {R : List Cls} (hm : Merge ls R) : ∀ (Ls : List (List Cls)) (bs : List Cls),
    ls = Ls ++ [bs] → (∀ l ∈ ls, ∀ x ∈ l, x < N) → (∀ l ∈ ls, l.Nodup) → (∀ x ∈ bs, ∃ l ∈ Ls, x ∈ l) →
    Merge (R :: (Ls.map (expand p) ++ [bs.map (rep p)])) (expand p R) := by
  induction hm with
  | nil he =>
    rintro Ls bs rfl hlt hnd hbs
    refine .nil ?_
    intro l hl
    simp only [List.mem_cons, List.mem_append, List.mem_map, List.not_mem_nil, or_false] at hl
    rcases hl with rfl | ⟨m, hm, rfl⟩ | rfl
    · rfl
    · rw [he m (by simp [hm])]; rfl
    · rw [he bs (by simp)]; rfl
  | @cons ls k R hp hm' ih =>
    rintro Ls bs rfl hlt hnd hbs
    obtain ⟨pre, l0, post, hls, htails, hpre⟩ := pick_spec.1 hp
    have hltL : ∀ l ∈ Ls, ∀ x ∈ l, x < N := fun l hl => hlt l (by simp [hl])
    have hltB : ∀ x ∈ bs, x < N := hlt bs (by simp)
    have hkmem : k :: l0 ∈ Ls ++ [bs] := by rw [hls]; simp
    have hkN : k < N := hlt _ hkmem k (.head _)
    have hR : ∀ x, x ∈ R ↔ ∃ l ∈ (Ls ++ [bs]).map (pop k), x ∈ l := merge_mem hm'
    have hkR : k ∉ R := by
      intro h
      obtain ⟨q, hq, hx⟩ := (hR k).1 h
      obtain ⟨l, hl, rfl⟩ := List.mem_map.1 hq
      exact not_mem_popped hp hl hx
    have hRlt : ∀ x ∈ R, x < N := by
      intro x hx
      obtain ⟨q, hq, hx⟩ := (hR x).1 hx
      obtain ⟨l, hl, rfl⟩ := List.mem_map.1 hq
      exact hlt l hl x (mem_pop hx)
    -- some list of Ls is headed by k, and is before the bases
    have hsplit : ∃ pre' post' l1, Ls = pre' ++ (k :: l1) :: post' ∧ pre' <+: pre := by
      rcases List.append_eq_append_iff.1 hls with ⟨as, h1, h2⟩ | ⟨cs, h1, h2⟩
      · -- pre = Ls ++ as: k heads the bases
        have has : as = [] := by
          cases as with
          | nil => rfl
          | cons a as => cases as <;> simp at h2
        subst has
        simp only [List.nil_append, List.cons.injEq] at h2
        have hkb : k ∈ bs := by rw [h2.1]; simp
        obtain ⟨l, hl, hkl⟩ := hbs k hkb
        have hnt := htails l (by simp [hl])
        have : ∃ t, l = k :: t := by
          cases l with
          | nil => cases hkl
          | cons a t =>
            cases hkl with
            | head => exact ⟨t, rfl⟩
            | tail _ h => exact absurd h hnt
        obtain ⟨t, rfl⟩ := this
        obtain ⟨a, b, hab⟩ := List.append_of_mem hl
        refine ⟨a, b, t, hab, ?_⟩
        rw [h1, hab]; simp
      · cases cs with
        | nil =>
          simp only [List.nil_append] at h2
          simp only [List.append_nil] at h1
          have hkb : k ∈ bs := by
            have := (List.cons.inj h2).1
            rw [← this]; simp
          obtain ⟨l, hl, hkl⟩ := hbs k hkb
          have hnt := htails l (by simp [hl])
          have : ∃ t, l = k :: t := by
            cases l with
            | nil => cases hkl
            | cons a t =>
              cases hkl with
              | head => exact ⟨t, rfl⟩
              | tail _ h => exact absurd h hnt
          obtain ⟨t, rfl⟩ := this
          obtain ⟨a, b, hab⟩ := List.append_of_mem hl
          refine ⟨a, b, t, hab, ?_⟩
          rw [← h1, hab]; simp
        | cons c cs =>
          obtain ⟨rfl, h2⟩ := List.cons.inj h2
          exact ⟨pre, cs, l0, h1, List.prefix_refl _⟩
    obtain ⟨pre', post', l1, hLs, hpref⟩ := hsplit
    have hpre' : ∀ q ∈ pre', ∀ x, q.head? = some x → ∃ m ∈ Ls ++ [bs], x ∈ m.tail :=
      fun q hq => hpre q (hpref.subset hq)
    -- rep k is in no tail of the expanded lists
    have hnoE : ∀ l ∈ Ls, rep p k ∉ (expand p l).tail := by
      intro l hl h
      exact htails l (by simp [hl]) ((rep_mem_expand_tail hF (hltL l hl) hkN).1 h)
    have hnoB : rep p k ∉ (bs.map (rep p)).tail := by
      intro h
      exact htails bs (by simp) ((rep_mem_map_tail hF hltB hkN).1 h)
    have ihh := ih (Ls.map (pop k)) (pop k bs) (by simp)
      (by
        intro l hl x hx
        obtain ⟨m, hm, rfl⟩ := List.mem_map.1 hl
        exact hlt m hm x (mem_pop hx))
      (by
        intro l hl
        obtain ⟨m, hm, rfl⟩ := List.mem_map.1 hl
        exact nodup_pop (hnd m hm))
      (by
        intro x hx
        have hxb := mem_pop hx
        obtain ⟨l, hl, hxl⟩ := hbs x hxb
        have hxk : x ≠ k := by
          rintro rfl
          exact not_mem_popped hp (l := bs) (by simp) hx
        refine ⟨_, List.mem_map_of_mem hl, ?_⟩
        rcases mem_of_mem_pop (h := k) hxl with h | h
        · exact absurd h hxk
        · exact h)
    rcases rep_cases p k with ⟨h2, h2'⟩ | ⟨k', h2, h2'⟩
    · -- k is not decorated: it is picked from R
      rw [h2'] at hnoE hnoB
      have hex : expand p (k :: R) = k :: expand p R := by simp [expand_cons, exp1, h2]
      rw [hex]
      refine .cons (pick_spec.2 ⟨[], R, _, rfl, ?_, by simp⟩) ?_
      · intro m hm
        simp only [List.mem_cons, List.mem_append, List.mem_map, List.not_mem_nil, or_false] at hm
        rcases hm with rfl | ⟨m, hm, rfl⟩ | rfl
        · exact hkR
        · exact hnoE m hm
        · exact hnoB
      · have e1 : ((k :: R) :: (Ls.map (expand p) ++ [bs.map (rep p)])).map (pop k) =
            R :: ((Ls.map (pop k)).map (expand p) ++ [(pop k bs).map (rep p)]) := by
          have e2 : pop k (bs.map (rep p)) = (pop k bs).map (rep p) := by
            have := pop_map_rep hF hltB hkN; rwa [h2'] at this
          simp only [List.map_cons, List.map_append, List.map_map, List.map_nil, e2]
          congr 1
          · simp [pop]
          congr 1
          refine List.map_congr_left ?_
          intro l hl
          exact pop_expand_none hF (hltL l hl) hkN h2
        rw [e1]; exact ihh
    · -- k' comes first
      have hk'N := hF.new hkN h2
      rw [h2'] at hnoE hnoB
      have hex : expand p (k :: R) = k' :: k :: expand p R := by simp [expand_cons, exp1, h2]
      rw [hex]
      have hEk : expand p (k :: l1) = k' :: (k :: expand p l1) := by simp [expand_cons, exp1, h2]
      have e1 : ((k :: R) :: (Ls.map (expand p) ++ [bs.map (rep p)])).map (pop k') =
          (k :: R) :: (Ls.map (fun l => pop k' (expand p l)) ++ [(pop k bs).map (rep p)]) := by
        have e2 : pop k' (bs.map (rep p)) = (pop k bs).map (rep p) := by
          have := pop_map_rep hF hltB hkN; rwa [h2'] at this
        have e3 : pop k' (k :: R) = k :: R := by
          unfold pop
          rw [if_neg]
          simp only [List.head?_cons, Option.some.injEq]; omega
        simp only [List.map_cons, List.map_append, List.map_map, List.map_nil, e2, e3]
        rfl
      refine .cons (h := k') ?_ ?_
      · refine pick_spec.2 ⟨(k :: R) :: pre'.map (expand p), k :: expand p l1, post'.map (expand p) ++ [bs.map (rep p)], ?_, ?_, ?_⟩
        · rw [hLs]; simp [hEk]
        · intro m hm
          simp only [List.mem_cons, List.mem_append, List.mem_map, List.not_mem_nil, or_false] at hm
          rcases hm with rfl | ⟨m, hm, rfl⟩ | rfl
          · intro h
            have := hRlt _ h; omega
          · exact hnoE m hm
          · exact hnoB
        · intro q hq x hx
          simp only [List.mem_cons, List.mem_map] at hq
          rcases hq with rfl | ⟨m, hm, rfl⟩
          · cases hx
            refine ⟨expand p (k :: l1), ?_, ?_⟩
            · rw [hLs]; simp
            · rw [hEk]; simp
          · rw [head_expand] at hx
            cases hmh : m.head? with
            | none => rw [hmh] at hx; cases hx
            | some j =>
              rw [hmh] at hx
              cases hx
              obtain ⟨q, hq, hj⟩ := hpre' m hm j hmh
              have hmL : m ∈ Ls := by rw [hLs]; simp [hm]
              have hjN : j < N := hltL m hmL j (List.mem_of_head? hmh)
              rcases List.mem_append.1 hq with hq | hq
              · refine ⟨expand p q, ?_, (rep_mem_expand_tail hF (hltL q hq) hjN).2 hj⟩
                simp only [List.mem_cons, List.mem_append, List.mem_map]
                exact .inr (.inl ⟨q, hq, rfl⟩)
              · simp only [List.mem_cons, List.not_mem_nil, or_false] at hq
                subst hq
                refine ⟨q.map (rep p), ?_, (rep_mem_map_tail hF hltB hjN).2 hj⟩
                simp
      · rw [e1]
        refine .cons (pick_spec.2 ⟨[], R, _, rfl, ?_, by simp⟩) ?_
        · intro m hm
          simp only [List.mem_cons, List.mem_append, List.mem_map, List.not_mem_nil, or_false] at hm
          rcases hm with rfl | ⟨m, hm, rfl⟩ | rfl
          · exact hkR
          · rw [(pop_expand_some hF (hltL m hm) hkN h2).1]
            have hnt := htails m (by simp [hm])
            split
            · rw [List.tail_cons, mem_expand_old hF (fun x hx => hltL m hm x (List.mem_of_mem_tail hx)) hkN]
              exact hnt
            · rename_i hh
              have hkm : k ∉ m := by
                intro h
                cases m with
                | nil => cases h
                | cons a t =>
                  cases h with
                  | head => exact hh rfl
                  | tail _ h => exact hnt h
              intro h
              exact hkm ((mem_expand_old hF (hltL m hm) hkN).1 (List.mem_of_mem_tail h))
          · intro h
            obtain ⟨j, hj, he⟩ := List.mem_map.1 (List.mem_of_mem_tail h)
            have hjN := hltB j (mem_pop hj)
            rcases rep_cases p j with ⟨h3, h3'⟩ | ⟨j', h3, h3'⟩
            · have : j = k := by omega
              subst this; rw [h2] at h3; cases h3
            · have := hF.new hjN h3; omega
        · have e3 : ((k :: R) :: (Ls.map (fun l => pop k' (expand p l)) ++ [(pop k bs).map (rep p)])).map (pop k) =
              R :: ((Ls.map (pop k)).map (expand p) ++ [(pop k bs).map (rep p)]) := by
            have e2 : pop k ((pop k bs).map (rep p)) = (pop k bs).map (rep p) := by
              unfold pop
              rw [if_neg]
              intro h
              have hm := List.mem_of_head? h
              obtain ⟨j, hj, he⟩ := List.mem_map.1 hm
              have hjN := hltB j (mem_pop (h := k) hj)
              rcases rep_cases p j with ⟨h3, h3'⟩ | ⟨j', h3, h3'⟩
              · have : j = k := by omega
                subst this; rw [h2] at h3; cases h3
              · have := hF.new hjN h3; omega
            simp only [List.map_cons, List.map_append, List.map_map, List.map_nil, e2]
            congr 1
            · simp [pop]
            congr 1
            refine List.map_congr_left ?_
            intro l hl
            exact (pop_expand_some hF (hltL l hl) hkN h2).2
          rw [e3]; exact ihh

end

end Big.BoundInner
