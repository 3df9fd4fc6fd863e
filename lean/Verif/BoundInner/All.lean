import Verif.BoundInner.Props
/-! # C97: bound inner classes in every history

Also with `super()` and `__get__` called directly, with classes that are attributes under several names, and with
outer instances destroyed. -/
namespace Big.BoundInner

/-! ### Specification -/

/-- Nothing is cached yet under the names of decorated classes, and instances hold only classes that exist. -/
structure Unread (A : Attrs) (S : State) : Prop where
  empty : ∀ o name, Desc A o name → S.dict o name = none
  exist : ∀ o name w, S.dict o name = some (.cls w) → w < S.heap.length
  decorated : ∀ o name b c, A o name = some (.desc b c) → c < S.heap.length

/-- The decorated classes of this instance's type are attributes under their own names. -/
def OwnNameOf (A : Attrs) (S : State) (o : Outer) : Prop :=
  ∀ name b c, A o name = some (.desc b c) → c < S.heap.length ∧ (S.info c).name = name

/-- The program gets at the inner classes of `o` only as attributes of `o`. -/
def PlainFor (o : Outer) (ops : List Op) : Prop := ∀ op ∈ ops, ∀ b c, op ≠ .direct o b c

/-- All inner classes of `o` are decorated with BoundInnerClass, those got at by `super()` too. -/
def AllBound (A : Attrs) (S : State) (o : Outer) (ops : List Op) : Prop :=
  (∀ name b c, A o name = some (.desc b c) → b = true) ∧
  ∀ b c, Op.direct o b c ∈ ops → b = true ∧ c < S.heap.length

/-! ### What changes -/

/-- Only the `__dict__` of `o` changes. -/
def Only (o : Outer) (S S' : State) : Prop := ∀ o' n, o' ≠ o → S'.dict o' n = S.dict o' n

theorem wrap_only (o : Outer) (b : Bool) (c : Cls) (S : State) (xs : List (Cls × Bool)) : Only o S (wrap o b c S xs).2 := by
  intro o' n h
  unfold wrap
  dsimp only
  split
  · rfl
  · dsimp only
    rw [if_neg (fun hh => h hh.1)]

theorem bind_only (A : Attrs) : ∀ (n : Nat) (S : State) (o : Outer) (b : Bool) (c : Cls), Only o S (bind A n S o b c).2
  | 0, S, _, _, _ => fun _ _ _ => rfl
  | n + 1, S, o, b, c => by
    unfold bind
    have h1 : Only o S (loop (fun S name => lookup A (bind A n) S o name) (S.info c).name S (S.info c).bases).2 :=
      loop_rel (R := Only o) (I := fun _ => True) (fun _ _ _ _ => rfl)
        (fun h h' o' n hn => (h' o' n hn).trans (h o' n hn)) (fun _ _ => trivial)
        (fun S b _ _ _ => lookup_rel (R := Only o) (fun _ _ _ _ => rfl) fun b c _ _ => bind_only A n S o b c) S trivial
    split
    · rename_i hl; rw [hl] at h1; exact h1
    · rename_i xs S' hl
      rw [hl] at h1
      exact fun o' n hn => (wrap_only o b c S' xs o' n hn).trans (h1 o' n hn)

theorem get_only (A : Attrs) (n : Nat) (S : State) (o : Outer) (name : String) : Only o S (get A n S o name).2 := by
  rw [get_snd]
  exact lookup_rel (R := Only o) (fun _ _ _ _ => rfl) fun b c _ _ => bind_only A n S o b c

theorem OwnNameOf.append {A : Attrs} {S S' : State} {o : Outer} (h : OwnNameOf A S o) (hg : ∃ t, S'.heap = S.heap ++ t) :
    OwnNameOf A S' o := by
  intro name b c hA
  obtain ⟨h1, h2⟩ := h name b c hA
  refine ⟨?_, by rw [info_append hg h1]; exact h2⟩
  obtain ⟨t, ht⟩ := hg
  rw [ht]; simp; omega

/-- As `bind_adds`, but only about this outer instance. -/
theorem bind_addsOf {A : Attrs} : ∀ (n : Nat) (S : State) (o : Outer) (b : Bool) (c : Cls) (name : String), OwnNameOf A S o →
    A o name = some (.desc b c) → S.dict o name = none → Adds o (Desc A o) S (bind A n S o b c).2
  | 0, S, o, _, _, _, _, _, _ => .refl S
  | n + 1, S, o, b, c, name, hO, hA, hd => by
    unfold bind
    obtain ⟨hc, hname⟩ := hO name b c hA
    have h1 : Grow S (loop (fun S name => lookup A (bind A n) S o name) (S.info c).name S (S.info c).bases).2 ∧
        Adds o (Desc A o) S (loop (fun S name => lookup A (bind A n) S o name) (S.info c).name S (S.info c).bases).2 := by
      refine loop_rel (R := fun S S' => Grow S S' ∧ Adds o (Desc A o) S S') (I := fun S => OwnNameOf A S o)
        (fun S => ⟨.refl S, .refl S⟩) (fun h h' => ⟨h.1.trans h'.1, h.2.trans h'.2⟩) (fun h h' => h.append h'.1.heap) ?_ S hO
      intro S b hS _ _
      exact lookup_rel (R := fun S S' => Grow S S' ∧ Adds o (Desc A o) S S') (fun S => ⟨.refl S, .refl S⟩)
        fun b c hA hd => ⟨bind_grow A n S o b c, bind_addsOf n S o b c _ hS hA hd⟩
    split
    · rename_i hl; rw [hl] at h1; exact h1.2
    · rename_i xs S' hl
      rw [hl] at h1
      have hn' : (S'.info c).name = name := by rw [h1.1.info hc, hname]
      intro o' m
      unfold wrap
      dsimp only
      split
      · exact h1.2 o' m
      · dsimp only
        rw [hn']
        by_cases hcase : o' = o ∧ m = name
        · obtain ⟨rfl, rfl⟩ := hcase
          exact .inr ⟨rfl, hd, b, c, hA⟩
        · rw [if_neg hcase]
          exact h1.2 o' m

theorem run_dictOf {A : Attrs} {n : Nat} {ops : List Op} {o : Outer} : ∀ {S : State}, OwnNameOf A S o → PlainFor o ops → ∀ name,
    (∀ v, S.dict o name = some v → (run A n S ops).dict o name = some v) ∧
    (¬ Desc A o name → (run A n S ops).dict o name = S.dict o name) := by
  induction ops with
  | nil => intro S _ _ name; exact ⟨fun _ h => h, fun _ => rfl⟩
  | cons op ops ih =>
    intro S hO hp name
    have h2 := ih (hO.append (exec_heap A n S op)) (fun x hx => hp x (.tail _ hx)) name
    have h1 : (∀ v, S.dict o name = some v → (exec A n S op).dict o name = some v) ∧
        (¬ Desc A o name → (exec A n S op).dict o name = S.dict o name) := by
      have hop := hp op (.head _)
      cases op with
      | get o' name' =>
        by_cases ho : o = o'
        · subst ho
          have : Adds o (Desc A o) S (get A n S o name').2 := by
            rw [get_snd]
            exact lookup_rel Adds.refl fun b c hA hd => bind_addsOf n S o b c name' hO hA hd
          refine ⟨fun v hv => this.keep hv, fun hD => ?_⟩
          rcases this o name with h | ⟨-, -, h⟩
          · exact h
          · exact absurd h hD
        · have := get_only A n S o' name' o name ho
          exact ⟨fun v hv => by show (get A n S o' name').2.dict o name = _; rw [this, hv], fun _ => this⟩
      | direct o' b c =>
        have ho : o ≠ o' := fun e => hop b c (by rw [e])
        have := bind_only A n S o' b c o name ho
        exact ⟨fun v hv => by show (bind A n S o' b c).2.dict o name = _; rw [this, hv], fun _ => this⟩
      | die o => exact ⟨fun _ h => h, fun _ => rfl⟩
    refine ⟨fun v hv => h2.1 v (h1.1 v hv), fun hD => ?_⟩
    show (run A n (exec A n S op) ops).dict o name = _
    rw [h2.2 hD, h1.2 hD]

/-- What `o.name` can be: what is in the `__dict__`, a plain attribute, or the result of `__get__`. -/
theorem get_cases {A : Attrs} {n : Nat} {S S' : State} {o : Outer} {name : String} {v : Val}
    (h : get A n S o name = (.ok v, S')) :
    (S.dict o name = some v ∧ S' = S) ∨ (S.dict o name = none ∧ A o name = some (.plain v) ∧ S' = S) ∨
    ∃ b c w, S.dict o name = none ∧ A o name = some (.desc b c) ∧ v = .cls w ∧ bind A n S o b c = (.ok w, S') := by
  unfold get lookup at h
  cases hd : S.dict o name with
  | some v' =>
    rw [hd] at h
    cases h
    exact .inl ⟨rfl, rfl⟩
  | none =>
    rw [hd] at h
    dsimp only at h
    cases hA : A o name with
    | none => rw [hA] at h; cases h
    | some a =>
      rw [hA] at h
      cases a with
      | plain v' => cases h; exact .inr (.inl ⟨rfl, rfl, rfl⟩)
      | desc b c =>
        dsimp only at h
        cases hb : bind A n S o b c with
        | mk x S1 =>
          rw [hb] at h
          cases x with
          | error e => cases h
          | ok w =>
            cases h
            exact .inr (.inr ⟨b, c, w, rfl, rfl, rfl, by first | rfl | exact hb⟩)

/-- What `__get__` returns is a class that did not exist before. -/
theorem bind_new {A : Attrs} {n : Nat} {S S' : State} {o : Outer} {b : Bool} {c w : Cls} (h : bind A n S o b c = (.ok w, S')) :
    S.heap.length ≤ w ∧ w + 1 = S'.heap.length ∧ S'.info w = ⟨(S'.info w).name, c :: (S'.info w).bases.tail,
      w :: (S'.info w).mro.tail, if b then .bind o c else .inherit⟩ := by
  cases n with
  | zero => simp [bind] at h
  | succ n =>
    unfold bind at h
    have hgl : Grow S (loop (fun S name => lookup A (bind A n) S o name) (S.info c).name S (S.info c).bases).2 :=
      loop_rel (R := Grow) (I := fun _ => True) Grow.refl Grow.trans (fun _ _ => trivial)
        (fun S b _ _ _ => lookup_rel (R := Grow) Grow.refl fun b c _ _ => bind_grow A n S o b c) S trivial
    split at h
    · cases h
    · rename_i xs S1 hl
      rw [hl] at hgl
      unfold wrap at h
      dsimp only at h
      split at h
      · cases h
      · rename_i mro hm
        obtain ⟨r, rfl, -, -⟩ := linearize_head hm
        cases h
        refine ⟨hgl.length, by simp, ?_⟩
        have : (S1.heap ++ [(⟨(S1.info c).name, if xs.any (·.2) then c :: xs.map (·.1) else [c], S1.heap.length :: r,
            if b then .bind o c else .inherit⟩ : ClassRec)]).getD S1.heap.length default
            = ⟨(S1.info c).name, if xs.any (·.2) then c :: xs.map (·.1) else [c], S1.heap.length :: r,
            if b then .bind o c else .inherit⟩ := by
          rw [List.getD_eq_getElem?_getD, List.getElem?_append_right (Nat.le_refl _)]
          simp
        unfold State.info at *
        dsimp only at *
        rw [this]
        dsimp only
        congr 1
        split <;> rfl

/-! ### Instances do not share classes -/

/-- What is in the `__dict__`s of `S'` was there in `S`, or is a class made since. -/
structure Since (S S' : State) : Prop where
  heap : ∃ t, S'.heap = S.heap ++ t
  entry : ∀ o n v, S'.dict o n = some v → S.dict o n = some v ∨ ∃ w, v = .cls w ∧ S.heap.length ≤ w ∧ w < S'.heap.length

theorem Since.length {S S' : State} (h : Since S S') : S.heap.length ≤ S'.heap.length := by
  obtain ⟨t, ht⟩ := h.heap
  rw [ht]; simp

theorem Since.refl (S : State) : Since S S := ⟨⟨[], by simp⟩, fun _ _ _ h => .inl h⟩

theorem Since.trans {S S' S'' : State} (h : Since S S') (h' : Since S' S'') : Since S S'' := by
  refine ⟨?_, ?_⟩
  · obtain ⟨t, ht⟩ := h.heap
    obtain ⟨t', ht'⟩ := h'.heap
    exact ⟨t ++ t', by rw [ht', ht, List.append_assoc]⟩
  · intro o n v hv
    have l1 := h.length
    have l2 := h'.length
    rcases h'.entry o n v hv with h1 | ⟨w, rfl, h2, h3⟩
    · rcases h.entry o n v h1 with h1 | ⟨w, rfl, h2, h3⟩
      · exact .inl h1
      · exact .inr ⟨w, rfl, h2, by omega⟩
    · exact .inr ⟨w, rfl, by omega, h3⟩

/-- Classes made after the first `N` are in the `__dict__` of one instance at most. -/
structure Apart (N : Nat) (S : State) : Prop where
  len : N ≤ S.heap.length
  exist : ∀ o name w, S.dict o name = some (.cls w) → w < S.heap.length
  apart : ∀ o n o' n' w, N ≤ w → S.dict o n = some (.cls w) → S.dict o' n' = some (.cls w) → o = o'

theorem wrap_since (N : Nat) (o : Outer) (b : Bool) (c : Cls) (S : State) (xs : List (Cls × Bool)) :
    Since S (wrap o b c S xs).2 ∧ (Apart N S → Apart N (wrap o b c S xs).2) := by
  unfold wrap
  dsimp only
  split
  · exact ⟨.refl S, id⟩
  · refine ⟨⟨⟨_, rfl⟩, ?_⟩, ?_⟩
    · intro o' n v hv
      dsimp only at hv
      split at hv
      · cases hv; exact .inr ⟨_, rfl, Nat.le_refl _, by simp⟩
      · exact .inl hv
    · intro h
      refine ⟨?_, ?_, ?_⟩
      · have := h.len; simp; omega
      · intro o' n w hv
        dsimp only at hv
        split at hv
        · cases hv; simp
        · have := h.exist o' n w hv; simp; omega
      · intro o1 n1 o2 n2 w hw h1 h2
        dsimp only at h1 h2
        split at h1 <;> split at h2
        · rename_i e1 e2; exact e1.1.trans e2.1.symm
        · cases h1
          exact absurd (h.exist _ _ _ h2) (Nat.lt_irrefl _)
        · cases h2
          exact absurd (h.exist _ _ _ h1) (Nat.lt_irrefl _)
        · exact h.apart o1 n1 o2 n2 w hw h1 h2

/-- Both: the heap has only grown since, and classes made for different instances stay apart. -/
def SinceApart (N : Nat) (S S' : State) : Prop := Since S S' ∧ (Apart N S → Apart N S')

theorem SinceApart.refl {N : Nat} (S : State) : SinceApart N S S := ⟨.refl S, id⟩

theorem SinceApart.trans {N : Nat} {S S' S'' : State} (h : SinceApart N S S') (h' : SinceApart N S' S'') :
    SinceApart N S S'' := ⟨h.1.trans h'.1, fun x => h'.2 (h.2 x)⟩

theorem bind_since (A : Attrs) (N : Nat) : ∀ (n : Nat) (S : State) (o : Outer) (b : Bool) (c : Cls),
    SinceApart N S (bind A n S o b c).2
  | 0, S, _, _, _ => .refl S
  | n + 1, S, o, b, c => by
    unfold bind
    have h1 : SinceApart N S (loop (fun S name => lookup A (bind A n) S o name) (S.info c).name S (S.info c).bases).2 :=
      loop_rel (R := SinceApart N) (I := fun _ => True) SinceApart.refl SinceApart.trans (fun _ _ => trivial)
        (fun S b _ _ _ => lookup_rel (R := SinceApart N) SinceApart.refl fun b c _ _ => bind_since A N n S o b c) S trivial
    split
    · rename_i hl; rw [hl] at h1; exact h1
    · rename_i xs S' hl
      rw [hl] at h1
      exact h1.trans (wrap_since N o b c S' xs)

theorem get_since (A : Attrs) (N : Nat) (n : Nat) (S : State) (o : Outer) (name : String) :
    SinceApart N S (get A n S o name).2 := by
  rw [get_snd]
  exact lookup_rel (R := SinceApart N) SinceApart.refl fun b c _ _ => bind_since A N n S o b c

theorem run_since (A : Attrs) (N : Nat) (n : Nat) : ∀ (ops : List Op) (S : State), SinceApart N S (run A n S ops)
  | [], S => .refl S
  | op :: ops, S => by
    have h1 : SinceApart N S (exec A n S op) := by
      cases op with
      | get o name => exact get_since A N n S o name
      | direct o b c => exact bind_since A N n S o b c
      | die o => exact ⟨⟨⟨[], by simp [exec]⟩, fun _ _ _ h => .inl h⟩, fun h => ⟨h.len, h.exist, h.apart⟩⟩
    exact h1.trans (run_since A N n ops (exec A n S op))

/-! ### The theorems -/

/-- C97: once `o.name` has been read, it is the same object each time it is read, if the decorated classes of `o` are
attributes under their own names and are accessed as attributes of `o`; whatever is done to other instances, and however their classes
are named. -/
theorem C97_same (A : Attrs) (n m k : Nat) (S S1 : State) (o : Outer) (name : String) (v : Val) (ops : List Op)
    (hO : OwnNameOf A S o) (hp : PlainFor o ops) (h : get A n S o name = (.ok v, S1)) :
    get A m (run A k S1 ops) o name = (.ok v, run A k S1 ops) := by
  have hg := get_grow A n S o name
  rw [h] at hg
  have hd := run_dictOf (n := k) (hO.append hg.heap) hp name
  rcases get_cases h with ⟨h1, rfl⟩ | ⟨h1, h2, rfl⟩ | ⟨b, c, w, h1, h2, rfl, h3⟩
  · exact get_cached (hd.1 v h1)
  · have h3 : (run A k S1 ops).dict o name = none := by
      rw [hd.2, h1]
      rintro ⟨b, c, h⟩
      rw [h2] at h; cases h
    unfold get lookup
    rw [h3, h2]
  · obtain ⟨hc, hn⟩ := hO name b c h2
    have := bind_result h3 hc
    rw [hn] at this
    exact get_cached (hd.1 _ this)

/-- C97: in every history whatsoever (also with `super()`, and classes with several names), two instances never share
a bound class. -/
theorem C97_distinct (A : Attrs) (n : Nat) (S S1 S2 : State) (o o' : Outer) (name name' : String) (v v' : Val)
    (ops ops' : List Op) (hS : Unread A S) (hD : Desc A o name) (hD' : Desc A o' name')
    (h : get A n (run A n S ops) o name = (.ok v, S1)) (h' : get A n (run A n S1 ops') o' name' = (.ok v', S2))
    (hne : o ≠ o') : v ≠ v' := by
  have a0 : Apart S.heap.length S :=
    ⟨Nat.le_refl _, hS.exist, fun _ _ _ _ w hw h1 _ => absurd (hS.exist _ _ _ h1) (Nat.not_lt.2 hw)⟩
  have r0 := run_since A S.heap.length n ops S
  have r1 := get_since A S.heap.length n (run A n S ops) o name
  have r2 := run_since A S.heap.length n ops' S1
  have r3 := get_since A S.heap.length n (run A n S1 ops') o' name'
  rw [h] at r1
  rw [h'] at r3
  have a1 := r1.2 (r0.2 a0)
  -- the first value is in the `__dict__` of `o` after the first access
  have hex : ∀ {T T' : State} {p : Outer} {nm : String} {u : Val}, Since S T → Desc A p nm →
      get A n T p nm = (.ok u, T') → ∃ w m, u = .cls w ∧ S.heap.length ≤ w ∧ T'.dict p m = some (.cls w) := by
    intro T T' p nm u hST hDp hg
    obtain ⟨b, c, hA⟩ := hDp
    rcases get_cases hg with ⟨h1, rfl⟩ | ⟨_, h2, _⟩ | ⟨b', c', w, h1, h2, rfl, h3⟩
    · rcases hST.entry p nm u h1 with h4 | ⟨w, rfl, h4, _⟩
      · rw [hS.empty p nm ⟨b, c, hA⟩] at h4; cases h4
      · exact ⟨w, nm, rfl, h4, h1⟩
    · rw [hA] at h2; cases h2
    · have hc : c' < T.heap.length := Nat.lt_of_lt_of_le (hS.decorated _ _ _ _ h2) hST.length
      exact ⟨w, _, rfl, Nat.le_trans hST.length (bind_new h3).1, bind_result h3 hc⟩
  obtain ⟨w, m, rfl, hw, hm⟩ := hex r0.1 hD h
  rintro rfl
  obtain ⟨w', m', e, hw', hm'⟩ := hex (r0.1.trans (r1.1.trans r2.1)) hD' h'
  cases e
  rcases (r2.1.trans r3.1).entry _ _ _ hm' with h4 | ⟨w2, e, h4, _⟩
  · exact hne (a1.apart _ _ _ _ _ hw hm h4)
  · cases e
    exact absurd (a1.exist _ _ _ hm) (Nat.not_lt.2 h4)

/-! ### What instances of a bound class receive -/

/-- What is in the `__dict__` of `o` under the names of decorated classes and new: bound classes of `o`. -/
structure Binds (A : Attrs) (N : Nat) (o : Outer) (S : State) : Prop where
  len : N ≤ S.heap.length
  entry : ∀ name w, N ≤ w → S.dict o name = some (.cls w) → w < S.heap.length ∧ ∃ c, c < N ∧ (S.info c).name = name ∧
    S.info w = ⟨(S.info w).name, c :: (S.info w).bases.tail, w :: (S.info w).mro.tail, .bind o c⟩

theorem bind_binds {A : Attrs} {N : Nat} {o : Outer} (hb : ∀ name b c, A o name = some (.desc b c) → b = true ∧ c < N) :
    ∀ (n : Nat) (S : State) (c : Cls), c < N → Binds A N o S → Binds A N o (bind A n S o true c).2
  | 0, S, _, _, h => h
  | n + 1, S, c, hc, hS => by
    have hgl : Grow S (loop (fun S name => lookup A (bind A n) S o name) (S.info c).name S (S.info c).bases).2 :=
      loop_rel (R := Grow) (I := fun _ => True) Grow.refl Grow.trans (fun _ _ => trivial)
        (fun S b _ _ _ => lookup_rel (R := Grow) Grow.refl fun b c _ _ => bind_grow A n S o b c) S trivial
    have h1 := loop_rel (R := fun S S' => Binds A N o S → Binds A N o S') (I := fun _ => True) (fun _ h => h)
      (fun h h' hS => h' (h hS)) (fun _ _ => trivial) (ga := fun S name => lookup A (bind A n) S o name)
      (name := (S.info c).name) (bs := (S.info c).bases)
      (fun S b _ _ _ => lookup_rel (R := fun S S' => Binds A N o S → Binds A N o S') (fun _ h => h)
        fun b c hA _ hS => by
          obtain ⟨e, hc⟩ := hb _ b c hA
          subst e
          exact bind_binds hb n S c hc hS) S trivial hS
    cases hbind : bind A (n + 1) S o true c with
    | mk x S2 =>
      have hres : ∀ w, x = .ok w → S.heap.length ≤ w ∧ w + 1 = S2.heap.length ∧
          S2.info w = ⟨(S2.info w).name, c :: (S2.info w).bases.tail, w :: (S2.info w).mro.tail, .bind o c⟩ := by
        intro w e; subst e; simpa using bind_new hbind
      have hgr := bind_grow A (n + 1) S o true c
      rw [hbind] at hgr
      unfold bind at hbind
      split at hbind
      · rename_i hl; rw [hl] at h1; cases hbind; exact h1
      · rename_i xs S' hl
        rw [hl] at h1 hgl
        have hwg := wrap_grow o true c S' xs
        rw [hbind] at hwg
        dsimp only at h1 hwg ⊢
        unfold wrap at hbind
        dsimp only at hbind
        split at hbind
        · cases hbind; exact h1
        · cases hbind
          obtain ⟨e1, e2, e3⟩ := hres _ rfl
          refine ⟨Nat.le_trans h1.len hwg.length, ?_⟩
          intro name w hw hd
          have hlen := h1.len
          dsimp only at hd
          split at hd
          · rename_i hcase
            cases hd
            refine ⟨by simp, c, hc, ?_, ?_⟩
            · rw [hwg.info (by omega)]; exact hcase.2.symm
            · exact e3
          · obtain ⟨h5, c', h6, h7, h8⟩ := h1.entry name w hw hd
            have := hwg.length
            refine ⟨by omega, c', h6, by rw [hwg.info (by omega)]; exact h7, ?_⟩
            rw [hwg.info h5]; exact h8

theorem binds_heap {A : Attrs} {N : Nat} {o : Outer} {S S' : State} (h : Binds A N o S) (hg : ∃ t, S'.heap = S.heap ++ t)
    (hd : ∀ n, S'.dict o n = S.dict o n) : Binds A N o S' := by
  have hl : S.heap.length ≤ S'.heap.length := by obtain ⟨t, ht⟩ := hg; rw [ht]; simp
  have := h.len
  refine ⟨by omega, ?_⟩
  intro name w hw hv
  rw [hd] at hv
  obtain ⟨h1, c, h2, h3, h4⟩ := h.entry name w hw hv
  exact ⟨by omega, c, h2, by rw [info_append hg (by omega)]; exact h3, by rw [info_append hg h1]; exact h4⟩

theorem get_binds {A : Attrs} {N n : Nat} {o o' : Outer} {S : State} {name : String}
    (hb : ∀ name b c, A o name = some (.desc b c) → b = true ∧ c < N) (h : Binds A N o S) :
    Binds A N o (get A n S o' name).2 := by
  by_cases ho : o = o'
  · subst ho
    rw [get_snd]
    exact lookup_rel (R := fun S S' => Binds A N o S → Binds A N o S') (fun _ h => h)
      (fun b c hA _ hS => by
        obtain ⟨e, hc⟩ := hb _ b c hA
        subst e
        exact bind_binds hb n S c hc hS) h
  · exact binds_heap h (get_grow A n S o' name).heap fun m => get_only A n S o' name o m ho

theorem run_binds {A : Attrs} {N n : Nat} {o : Outer}
    (hb : ∀ name b c, A o name = some (.desc b c) → b = true ∧ c < N) : ∀ (ops : List Op) (S : State),
    (∀ b c, Op.direct o b c ∈ ops → b = true ∧ c < N) → Binds A N o S → Binds A N o (run A n S ops)
  | [], S, _, h => h
  | op :: ops, S, hops, h => by
    refine run_binds hb ops (exec A n S op) (fun b c hm => hops b c (.tail _ hm)) ?_
    cases op with
    | get o' name => exact get_binds hb h
    | direct o' b c =>
      by_cases ho : o = o'
      · subst ho
        obtain ⟨e, hc⟩ := hops b c (.head _)
        subst e
        exact bind_binds hb n S c hc h
      · exact binds_heap h (bind_grow A n S o' b c).heap fun m => bind_only A n S o' b c o m ho
    | die o' => exact ⟨h.len, h.entry⟩

/-- The record of a bound class decides what its instances receive. -/
theorem construct_bound {S : State} {o : Outer} {w c k : Cls} {args : List Arg} (hw : w < S.heap.length)
    (h : S.info w = ⟨(S.info w).name, c :: (S.info w).bases.tail, w :: (S.info w).mro.tail, .bind o c⟩)
    (hk : (S.info c).mro.find? (fun j => (S.info j).init ≠ .inherit) = some k) (hown : (S.info k).init = .own) :
    construct S w args = some (k, deref S o :: args) := by
  have hi : (S.info w).init = .bind o c := by rw [h]
  have hm : (S.info w).mro = w :: (S.info w).mro.tail := by
    rw [h]; rfl
  unfold construct callInit
  rw [hm]
  have hf : (w :: (S.info w).mro.tail).find? (fun j => decide ((S.info j).init ≠ .inherit)) = some w := by
    rw [List.find?_cons, hi]; rfl
  rw [hf]
  dsimp only
  rw [hi]
  dsimp only
  cases hl : S.heap.length with
  | zero => omega
  | succ m =>
    unfold callInit
    rw [hk]
    dsimp only
    rw [hown]

/-- C97: in every history whatsoever, if the inner classes of `o` are all decorated with BoundInnerClass: what
`o.name` gives is a class bound to `o`, of the class that is the attribute or of one with that name. An instance of it, made at any
later time while `o` is alive, is initialized by that class's `__init__` (its own or the one it inherits) with `o` before the
arguments given, and never with another instance. -/
theorem C97_receives (A : Attrs) (n : Nat) (S S1 : State) (o : Outer) (name : String) (b : Bool) (c : Cls) (v : Val)
    (ops : List Op) (hS : Unread A S) (hb : AllBound A S o ops) (hA : A o name = some (.desc b c))
    (h : get A n (run A n S ops) o name = (.ok v, S1)) :
    ∃ w d, v = .cls w ∧ (d = c ∨ (S1.info d).name = name) ∧ ∀ (later : List Op) (args : List Arg) (k : Cls),
      let S2 := run A n S1 later
      (S2.info d).mro.find? (fun j => (S2.info j).init ≠ .inherit) = some k → (S2.info k).init = .own →
      construct S2 w args = some (k, (if S2.alive o then .outer o else .nothing) :: args) := by
  have hbb : ∀ name b c, A o name = some (.desc b c) → b = true ∧ c < S.heap.length :=
    fun nm b c hA => ⟨hb.1 nm b c hA, hS.decorated _ _ _ _ hA⟩
  have b0 : Binds A S.heap.length o S :=
    ⟨Nat.le_refl _, fun nm w hw hd => absurd (hS.exist _ _ _ hd) (Nat.not_lt.2 hw)⟩
  have b1 := run_binds (n := n) hbb ops S hb.2 b0
  have hs := (run_since A 0 n ops S).1
  have key : ∃ w d, v = .cls w ∧ (d = c ∨ (S1.info d).name = name) ∧ w < S1.heap.length ∧
      S1.info w = ⟨(S1.info w).name, d :: (S1.info w).bases.tail, w :: (S1.info w).mro.tail, .bind o d⟩ := by
    rcases get_cases h with ⟨h1, rfl⟩ | ⟨_, h2, _⟩ | ⟨b', c', w, h1, h2, rfl, h3⟩
    · rcases hs.entry _ _ _ h1 with h2 | ⟨w, rfl, h2, _⟩
      · rw [hS.empty o name ⟨b, c, hA⟩] at h2; cases h2
      · obtain ⟨h4, d, h5, h6, h7⟩ := b1.entry name w h2 h1
        exact ⟨w, d, rfl, .inr h6, h4, h7⟩
    · rw [hA] at h2; cases h2
    · rw [hA] at h2; cases h2
      obtain ⟨e1, e2, e3⟩ := bind_new h3
      have : b = true := hb.1 _ _ _ hA
      subst this
      exact ⟨w, c, rfl, .inl rfl, by omega, by simpa using e3⟩
  obtain ⟨w, d, rfl, hd, hw, hi⟩ := key
  refine ⟨w, d, rfl, hd, ?_⟩
  intro later args k S2 hk hown
  have hi2 : S2.info w = S1.info w := info_append (run_heap A n later S1) hw
  have hl : w < S2.heap.length := by
    obtain ⟨t, ht⟩ := run_heap A n later S1
    show w < (run A n S1 later).heap.length
    rw [ht]; simp; omega
  rw [construct_bound hl (by rw [hi2]; exact hi) hk hown]
  rfl

/-- C97: what else can happen. Getting at a class through `super()` (or by calling `__get__`) always makes a new class, and
replaces what is bound under the class's name. -/
theorem C97_direct_rebinds (A : Attrs) (n m : Nat) (S S1 : State) (o : Outer) (b : Bool) (c w : Cls)
    (hc : c < S.heap.length) (h : bind A n S o b c = (.ok w, S1)) :
    S.heap.length ≤ w ∧ get A m S1 o (S.info c).name = (.ok (.cls w), S1) :=
  ⟨(bind_new h).1, get_cached (bind_result h hc)⟩

/-- C97: and so does each access by a name `alias` that is the name of no decorated class, as such: `o.alias` is a
different class each time, and each time `o.name` becomes that class. -/
theorem C97_alias_rebinds (A : Attrs) (n : Nat) (S S1 S2 : State) (o : Outer) (alias : String) (b : Bool) (c : Cls) (v v' : Val)
    (hA : A o alias = some (.desc b c)) (hd : S.dict o alias = none)
    (hx : ∀ name b c, A o name = some (.desc b c) → c < S.heap.length ∧ (S.info c).name ≠ alias)
    (h : get A n S o alias = (.ok v, S1)) :
    get A n S1 o (S.info c).name = (.ok v, S1) ∧ (get A n S1 o alias = (.ok v', S2) → v' ≠ v) := by
  rcases get_cases h with ⟨h1, rfl⟩ | ⟨_, h2, _⟩ | ⟨b', c', w, h1, h2, rfl, h3⟩
  · rw [hd] at h1; cases h1
  · rw [hA] at h2; cases h2
  · rw [hA] at h2; cases h2
    refine ⟨(C97_direct_rebinds A n n S S1 o b c w (hx _ _ _ hA).1 h3).2, ?_⟩
    intro h'
    obtain ⟨e1, e2, -⟩ := bind_new h3
    -- nothing is stored under the alias
    have hno : ∀ (n : Nat) (T : State) (b : Bool) (c : Cls), (∃ t, T.heap = S.heap ++ t) → c < S.heap.length →
        (S.info c).name ≠ alias → T.dict o alias = none → (bind A n T o b c).2.dict o alias = none := by
      intro n
      induction n with
      | zero => intro T b c _ _ _ h; exact h
      | succ n ih =>
        intro T b c hT hc hne hn
        have hgl : Grow T (loop (fun S name => lookup A (bind A n) S o name) (T.info c).name T (T.info c).bases).2 :=
          loop_rel (R := Grow) (I := fun _ => True) Grow.refl Grow.trans (fun _ _ => trivial)
            (fun S b _ _ _ => lookup_rel (R := Grow) Grow.refl fun b c _ _ => bind_grow A n S o b c) T trivial
        have h1 := loop_rel (R := fun T T' => (∃ t, T.heap = S.heap ++ t) ∧ T.dict o alias = none →
            (∃ t, T'.heap = S.heap ++ t) ∧ T'.dict o alias = none) (I := fun _ => True) (fun _ h => h)
          (fun h h' hS => h' (h hS)) (fun _ _ => trivial) (ga := fun S name => lookup A (bind A n) S o name)
          (name := (T.info c).name) (bs := (T.info c).bases)
          (fun U b _ _ _ => lookup_rel (R := fun T T' => (∃ t, T.heap = S.heap ++ t) ∧ T.dict o alias = none →
            (∃ t, T'.heap = S.heap ++ t) ∧ T'.dict o alias = none) (fun _ h => h)
            fun b c hA _ hU => ⟨by
              obtain ⟨t, ht⟩ := hU.1
              obtain ⟨t', ht'⟩ := (bind_grow A n U o b c).heap
              exact ⟨t ++ t', by rw [ht', ht, List.append_assoc]⟩,
              ih U b c hU.1 (hx _ _ _ hA).1 (hx _ _ _ hA).2 hU.2⟩) T trivial ⟨hT, hn⟩
        unfold bind
        split
        · rename_i hl; rw [hl] at h1; exact h1.2
        · rename_i xs T' hl
          rw [hl] at h1 hgl
          unfold wrap
          dsimp only
          split
          · exact h1.2
          · dsimp only
            rw [if_neg]
            · exact h1.2
            · rintro ⟨-, e⟩
              rw [info_append h1.1 hc] at e
              exact hne e.symm
    have hn1 : S1.dict o alias = none := by
      have := hno n S b c ⟨[], by simp⟩ (hx _ _ _ hA).1 (hx _ _ _ hA).2 hd
      rwa [h3] at this
    rcases get_cases h' with ⟨h1, rfl⟩ | ⟨_, h2, _⟩ | ⟨b', c', w', h1, h2, rfl, h4⟩
    · rw [hn1] at h1; cases h1
    · rw [hA] at h2; cases h2
    · obtain ⟨e3, -, -⟩ := bind_new h4
      intro e
      cases e
      omega

/-! ### Examples -/

example : Unread aliasAttrs aliasState ∧ AllBound aliasAttrs aliasState 0 [.get 0 "Alias", .direct 0 true 1] := by
  have hc : ∀ o name b c, aliasAttrs o name = some (.desc b c) → b = true ∧ c = 1 := by
    intro o name b c h
    unfold aliasAttrs at h
    repeat' split at h
    all_goals cases h
    all_goals exact ⟨rfl, rfl⟩
  refine ⟨⟨fun _ _ _ => rfl, fun _ _ _ h => (by cases h), ?_⟩, ?_, ?_⟩
  · intro o name b c h; rw [(hc o name b c h).2]; decide
  · intro name b c h; exact (hc _ name b c h).1
  · intro b c h
    simp at h
    rw [h.1, h.2]; decide

example : OwnNameOf overAttrs overState 0 ∧ PlainFor 0 [.get 0 "Inner", .direct 1 true 1] := by
  refine ⟨?_, ?_⟩
  · intro name b c h
    unfold overAttrs at h
    split at h
    · rename_i e; cases h; rw [e]; decide
    · cases h
  · intro op hop b c e
    subst e
    simp at hop

end Big.BoundInner
