import Verif.BoundInner.Mro
/-! # What an access does to the state -/
namespace Big.BoundInner

/-- Classes are only added. -/
structure Grow (S S' : State) : Prop where
  heap : ∃ t, S'.heap = S.heap ++ t
  alive : S'.alive = S.alive

theorem Grow.refl (S : State) : Grow S S := ⟨⟨[], by simp⟩, rfl⟩

theorem Grow.trans {S S' S'' : State} (h : Grow S S') (h' : Grow S' S'') : Grow S S'' := by
  obtain ⟨t, ht⟩ := h.heap
  obtain ⟨t', ht'⟩ := h'.heap
  exact ⟨⟨t ++ t', by rw [ht', ht, List.append_assoc]⟩, h'.alive.trans h.alive⟩

theorem Grow.length {S S' : State} (h : Grow S S') : S.heap.length ≤ S'.heap.length := by
  obtain ⟨t, ht⟩ := h.heap
  rw [ht]; simp

theorem info_append {S S' : State} (h : ∃ t, S'.heap = S.heap ++ t) {c : Cls} (hc : c < S.heap.length) :
    S'.info c = S.info c := by
  obtain ⟨t, ht⟩ := h
  unfold State.info
  rw [ht, List.getD_eq_getElem?_getD, List.getD_eq_getElem?_getD, List.getElem?_append_left hc]

theorem Grow.info {S S' : State} (h : Grow S S') {c : Cls} (hc : c < S.heap.length) : S'.info c = S.info c :=
  info_append h.heap hc

/-- Entries of outer `o` may be added, with a name that satisfies `P`; nothing else in a `__dict__` changes. -/
def Adds (o : Outer) (P : String → Prop) (S S' : State) : Prop :=
  ∀ o' n, S'.dict o' n = S.dict o' n ∨ (o' = o ∧ S.dict o' n = none ∧ P n)

theorem Adds.refl {o : Outer} {P : String → Prop} (S : State) : Adds o P S S := fun _ _ => .inl rfl

theorem Adds.trans {o : Outer} {P : String → Prop} {S S' S'' : State} (h : Adds o P S S') (h' : Adds o P S' S'') :
    Adds o P S S'' := by
  intro o' n
  rcases h o' n with h1 | ⟨h1, h2, h3⟩
  · rcases h' o' n with h4 | ⟨h4, h5, h6⟩
    · exact .inl (h4.trans h1)
    · exact .inr ⟨h4, h1 ▸ h5, h6⟩
  · exact .inr ⟨h1, h2, h3⟩

theorem Adds.mono {o : Outer} {P Q : String → Prop} {S S' : State} (h : Adds o P S S') (hPQ : ∀ n, P n → Q n) :
    Adds o Q S S' := fun o' n => (h o' n).imp id fun ⟨a, b, c⟩ => ⟨a, b, hPQ n c⟩

theorem Adds.keep {o : Outer} {P : String → Prop} {S S' : State} (h : Adds o P S S') {o' : Outer} {n : String} {v : Val}
    (hv : S.dict o' n = some v) : S'.dict o' n = some v := by
  rcases h o' n with h | ⟨-, h, -⟩
  · rw [h, hv]
  · rw [hv] at h; cases h

/-- A relation between states that a lookup keeps is kept by the loop. -/
theorem loop_rel {R : State → State → Prop} {I : State → Prop} (refl : ∀ S, R S S)
    (trans : ∀ {S S' S''}, R S S' → R S' S'' → R S S'') (hI : ∀ {S S'}, I S → R S S' → I S')
    {ga : State → String → M (Option Val)} {name : String} {bs : List Cls}
    (hga : ∀ S b, I S → b ∈ bs → (S.info b).name ≠ name → R S (ga S (S.info b).name).2) :
    ∀ S, I S → R S (loop ga name S bs).2 := by
  induction bs with
  | nil => intro S _; exact refl S
  | cons b bs ih =>
    intro S hS
    have h1 : R S (step ga name S b).2 := by
      unfold step
      split
      · rename_i hn
        have := hga S b hS (.head _) hn
        split
        · rename_i hh; rw [hh] at this; exact this
        · rename_i hh; rw [hh] at this; exact this
        · rename_i hh; rw [hh] at this
          split <;> exact this
      · exact refl S
    unfold loop
    split
    · rename_i hs; rw [hs] at h1; exact h1
    · rename_i x S' hs
      rw [hs] at h1
      have h2 := ih (fun S b hS hb => hga S b hS (.tail _ hb)) S' (hI hS h1)
      split
      · rename_i hl; rw [hl] at h2; exact trans h1 h2
      · rename_i hl; rw [hl] at h2; exact trans h1 h2

theorem wrap_grow (o : Outer) (b : Bool) (c : Cls) (S : State) (xs : List (Cls × Bool)) : Grow S (wrap o b c S xs).2 := by
  unfold wrap
  dsimp only
  split
  · exact .refl S
  · exact ⟨⟨_, rfl⟩, rfl⟩

theorem lookup_rel {R : State → State → Prop} (refl : ∀ S, R S S) {A : Attrs}
    {gt : State → Outer → Bool → Cls → M Cls} {S : State} {o : Outer} {name : String}
    (h : ∀ b c, A o name = some (.desc b c) → S.dict o name = none → R S (gt S o b c).2) :
    R S (lookup A gt S o name).2 := by
  unfold lookup
  split
  · exact refl S
  · rename_i hd
    split
    · exact refl S
    · exact refl S
    · rename_i b c hA
      have := h b c hA hd
      split
      · rename_i hh; rw [hh] at this; exact this
      · rename_i hh; rw [hh] at this; exact this

theorem bind_grow (A : Attrs) : ∀ (n : Nat) (S : State) (o : Outer) (b : Bool) (c : Cls), Grow S (bind A n S o b c).2
  | 0, S, _, _, _ => .refl S
  | n + 1, S, o, b, c => by
    unfold bind
    have h1 : Grow S (loop (fun S name => lookup A (bind A n) S o name) (S.info c).name S (S.info c).bases).2 :=
      loop_rel (R := Grow) (I := fun _ => True) Grow.refl Grow.trans (fun _ _ => trivial)
        (fun S b _ _ _ => lookup_rel (R := Grow) Grow.refl fun b c _ _ => bind_grow A n S o b c) S trivial
    split
    · rename_i hl; rw [hl] at h1; exact h1
    · rename_i xs S' hl; rw [hl] at h1; exact h1.trans (wrap_grow o b c S' xs)

theorem get_snd (A : Attrs) (n : Nat) (S : State) (o : Outer) (name : String) :
    (get A n S o name).2 = (lookup A (bind A n) S o name).2 := by
  unfold get
  split <;> rename_i h <;> rw [h]

theorem get_grow (A : Attrs) (n : Nat) (S : State) (o : Outer) (name : String) : Grow S (get A n S o name).2 := by
  rw [get_snd]
  exact lookup_rel Grow.refl fun b c _ _ => bind_grow A n S o b c

/-! ### Decorated classes are attributes under their own names -/

/-- Each decorated class exists and is an attribute under its own name, and no other. -/
def OwnName (A : Attrs) (S : State) : Prop :=
  ∀ o name b c, A o name = some (.desc b c) → c < S.heap.length ∧ (S.info c).name = name

theorem OwnName.append {A : Attrs} {S S' : State} (h : OwnName A S) (hg : ∃ t, S'.heap = S.heap ++ t) : OwnName A S' := by
  intro o name b c hA
  obtain ⟨h1, h2⟩ := h o name b c hA
  refine ⟨?_, by rw [info_append hg h1]; exact h2⟩
  obtain ⟨t, ht⟩ := hg
  rw [ht]; simp; omega

theorem OwnName.grow {A : Attrs} {S S' : State} (h : OwnName A S) (hg : Grow S S') : OwnName A S' := h.append hg.heap

/-- Names of decorated classes. -/
def Desc (A : Attrs) (o : Outer) (name : String) : Prop := ∃ b c, A o name = some (.desc b c)

/-- A relation between states that is kept by what `wrap` does is kept by everything. -/
theorem bind_adds {A : Attrs} : ∀ (n : Nat) (S : State) (o : Outer) (b : Bool) (c : Cls) (name : String), OwnName A S →
    A o name = some (.desc b c) → S.dict o name = none → Adds o (Desc A o) S (bind A n S o b c).2
  | 0, S, o, _, _, _, _, _, _ => .refl S
  | n + 1, S, o, b, c, name, hO, hA, hd => by
    unfold bind
    obtain ⟨hc, hname⟩ := hO o name b c hA
    have h1 : Grow S (loop (fun S name => lookup A (bind A n) S o name) (S.info c).name S (S.info c).bases).2 ∧
        Adds o (Desc A o) S (loop (fun S name => lookup A (bind A n) S o name) (S.info c).name S (S.info c).bases).2 := by
      refine loop_rel (R := fun S S' => Grow S S' ∧ Adds o (Desc A o) S S') (I := OwnName A)
        (fun S => ⟨.refl S, .refl S⟩) (fun h h' => ⟨h.1.trans h'.1, h.2.trans h'.2⟩) (fun h h' => h.grow h'.1) ?_ S hO
      intro S b hS _ _
      exact lookup_rel (R := fun S S' => Grow S S' ∧ Adds o (Desc A o) S S') (fun S => ⟨.refl S, .refl S⟩)
        fun b c hA hd => ⟨bind_grow A n S o b c, bind_adds n S o b c _ hS hA hd⟩
    split
    · rename_i hl; rw [hl] at h1; exact h1.2
    · rename_i xs S' hl
      rw [hl] at h1
      have hn' : (S'.info c).name = name := by rw [h1.1.info hc, hname]
      -- what `wrap` adds was not there before
      intro o' m
      unfold wrap
      dsimp only
      split
      · exact h1.2 o' m
      · dsimp only
        rw [hn']
        by_cases hcase : o' = o ∧ m = name
        · obtain ⟨rfl, rfl⟩ := hcase
          exact .inr ⟨rfl, hd, b, c, hA⟩
        · rw [if_neg hcase]
          exact h1.2 o' m

theorem get_adds {A : Attrs} {n : Nat} {S : State} {o : Outer} {name : String} (hO : OwnName A S) :
    Adds o (Desc A o) S (get A n S o name).2 := by
  rw [get_snd]
  exact lookup_rel Adds.refl fun b c hA hd => bind_adds n S o b c name hO hA hd

end Big.BoundInner
