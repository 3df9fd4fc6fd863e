import Verif.BoundInner.Lemmas
/-! # What is cached -/
namespace Big.BoundInner

theorem linearize_head {mroOf : Cls → List Cls} {c : Cls} {bases mro : List Cls} (h : linearize mroOf c bases = some mro) :
    ∃ r, mro = c :: r ∧ Merge (bases.map mroOf ++ [bases]) r ∧ bases.Nodup := by
  unfold linearize at h
  split at h
  · rename_i hn
    simp only [Option.map_eq_some_iff] at h
    obtain ⟨r, hr, rfl⟩ := h
    exact ⟨r, rfl, (merge_iff _ _).1 hr, hn⟩
  · cases h

/-- What the `__dict__`s hold under the names of decorated classes: wrapper classes of those classes, for that outer
instance, created after the first `N` classes, each in one place. -/
structure Inv (A : Attrs) (N : Nat) (S : State) : Prop where
  len : N ≤ S.heap.length
  own : ∀ o name b c, A o name = some (.desc b c) → c < N ∧ (S.info c).name = name
  entry : ∀ o name b c v, A o name = some (.desc b c) → S.dict o name = some v → ∃ w rest r, v = .cls w ∧ N ≤ w ∧
    w < S.heap.length ∧ S.info w = ⟨name, c :: rest, w :: r, if b then .bind o c else .inherit⟩
  inj : ∀ o name o' name' w, Desc A o name → Desc A o' name' → S.dict o name = some (.cls w) →
    S.dict o' name' = some (.cls w) → o = o' ∧ name = name'

theorem Inv.ownName {A : Attrs} {N : Nat} {S : State} (h : Inv A N S) : OwnName A S := by
  intro o name b c hA
  have h1 := h.own o name b c hA
  have := h.len
  exact ⟨by omega, h1.2⟩

theorem wrap_inv {A : Attrs} {N : Nat} {S : State} (hS : Inv A N S) {o : Outer} {name : String} {b : Bool} {c : Cls}
    (hA : A o name = some (.desc b c)) (xs : List (Cls × Bool)) : Inv A N (wrap o b c S xs).2 := by
  have hg := wrap_grow o b c S xs
  obtain ⟨hcN, hname⟩ := hS.own o name b c hA
  have hlen := hS.len
  cases hl : linearize (fun b => (S.info b).mro) S.heap.length (if xs.any (·.2) then c :: xs.map (·.1) else [c]) with
  | none => simp only [wrap, hl]; exact hS
  | some mro =>
    obtain ⟨r, rfl, -, -⟩ := linearize_head hl
    have hnew : (wrap o b c S xs).2.info S.heap.length = ⟨name, (if xs.any (·.2) then c :: xs.map (·.1) else [c]),
        S.heap.length :: r, if b then .bind o c else .inherit⟩ := by
      simp only [wrap, hl]
      unfold State.info at hname ⊢
      rw [List.getD_eq_getElem?_getD, List.getElem?_append_right (Nat.le_refl _)]
      simp only [Nat.sub_self, List.getElem?_cons_zero, Option.getD_some]
      congr 1
    have hdict : ∀ o' m, (wrap o b c S xs).2.dict o' m = if o' = o ∧ m = name then some (.cls S.heap.length) else S.dict o' m := by
      intro o' m
      simp only [wrap, hl, hname]
    have hlen' : (wrap o b c S xs).2.heap.length = S.heap.length + 1 := by
      simp only [wrap, hl, List.length_append, List.length_cons, List.length_nil]
    refine ⟨by omega, ?_, ?_, ?_⟩
    · intro o' m b' c' hA'
      obtain ⟨h1, h2⟩ := hS.own o' m b' c' hA'
      exact ⟨h1, by rw [hg.info (by omega)]; exact h2⟩
    · intro o' m b' c' v hA' hd
      rw [hdict] at hd
      by_cases hcase : o' = o ∧ m = name
      · rw [if_pos hcase] at hd
        obtain ⟨rfl, rfl⟩ := hcase
        rw [hA] at hA'
        cases hA'
        cases hd
        refine ⟨S.heap.length, if xs.any (·.2) then xs.map (·.1) else [], r, rfl, hlen, by omega, ?_⟩
        rw [hnew]
        split <;> rfl
      · rw [if_neg hcase] at hd
        obtain ⟨w, rest, r, h1, h2, h3, h4⟩ := hS.entry o' m b' c' v hA' hd
        exact ⟨w, rest, r, h1, h2, by omega, by rw [hg.info h3]; exact h4⟩
    · have hold : ∀ o' m, Desc A o' m → S.dict o' m ≠ some (.cls S.heap.length) := by
        rintro o' m ⟨b', c', hA'⟩ hd
        obtain ⟨w, rest, r, h1, h2, h3, h4⟩ := hS.entry o' m b' c' _ hA' hd
        cases h1; omega
      intro o1 n1 o2 n2 w hD1 hD2 h1 h2
      rw [hdict] at h1 h2
      by_cases hc1 : o1 = o ∧ n1 = name <;> by_cases hc2 : o2 = o ∧ n2 = name
      · exact ⟨hc1.1.trans hc2.1.symm, hc1.2.trans hc2.2.symm⟩
      · rw [if_pos hc1] at h1; rw [if_neg hc2] at h2
        cases h1
        exact absurd h2 (hold o2 n2 hD2)
      · rw [if_neg hc1] at h1; rw [if_pos hc2] at h2
        cases h2
        exact absurd h1 (hold o1 n1 hD1)
      · rw [if_neg hc1] at h1; rw [if_neg hc2] at h2
        exact hS.inj o1 n1 o2 n2 w hD1 hD2 h1 h2

theorem bind_inv {A : Attrs} {N : Nat} : ∀ (n : Nat) (S : State) (o : Outer) (b : Bool) (c : Cls) (name : String), Inv A N S →
    A o name = some (.desc b c) → Inv A N (bind A n S o b c).2
  | 0, S, _, _, _, _, hS, _ => hS
  | n + 1, S, o, b, c, name, hS, hA => by
    unfold bind
    have h1 := loop_rel (R := fun S S' => Inv A N S → Inv A N S') (I := fun _ => True) (fun _ h => h)
      (fun h h' hS => h' (h hS)) (fun _ _ => trivial) (ga := fun S name => lookup A (bind A n) S o name)
      (name := (S.info c).name) (bs := (S.info c).bases)
      (fun S b _ _ _ => lookup_rel (R := fun S S' => Inv A N S → Inv A N S') (fun _ h => h)
        fun b c hA _ hS => bind_inv n S o b c _ hS hA) S trivial hS
    split
    · rename_i hl; rw [hl] at h1; exact h1
    · rename_i xs S' hl; rw [hl] at h1; exact wrap_inv h1 hA xs

theorem get_inv {A : Attrs} {N : Nat} {n : Nat} {S : State} {o : Outer} {name : String} (hS : Inv A N S) :
    Inv A N (get A n S o name).2 := by
  rw [get_snd]
  exact lookup_rel (R := fun S S' => Inv A N S → Inv A N S') (fun _ h => h) (fun b c hA _ hS => bind_inv n S o b c name hS hA) hS

theorem bind_result {A : Attrs} {n : Nat} {S S' : State} {o : Outer} {b : Bool} {c w : Cls} (h : bind A n S o b c = (.ok w, S'))
    (hc : c < S.heap.length) : S'.dict o (S.info c).name = some (.cls w) := by
  cases n with
  | zero => simp [bind] at h
  | succ n =>
    have hg := bind_grow A (n + 1) S o b c
    rw [h] at hg
    have hnm := hg.info hc
    rw [← hnm]
    unfold bind at h
    have hgl : Grow S (loop (fun S name => lookup A (bind A n) S o name) (S.info c).name S (S.info c).bases).2 :=
      loop_rel (R := Grow) (I := fun _ => True) Grow.refl Grow.trans (fun _ _ => trivial)
        (fun S b _ _ _ => lookup_rel (R := Grow) Grow.refl fun b c _ _ => bind_grow A n S o b c) S trivial
    split at h
    · cases h
    · rename_i xs S1 hl
      rw [hl] at hgl
      unfold wrap at h
      dsimp only at h
      split at h
      · cases h
      · cases h
        dsimp only
        rw [if_pos]
        refine ⟨rfl, ?_⟩
        rw [hnm, hgl.info hc]

/-- What a lookup returns is found in the `__dict__` afterwards, or the type's plain attribute. -/
theorem get_result {A : Attrs} {n : Nat} {S S' : State} {o : Outer} {name : String} {v : Val} (hO : OwnName A S)
    (h : get A n S o name = (.ok v, S')) :
    S'.dict o name = some v ∨ (S' = S ∧ S.dict o name = none ∧ A o name = some (.plain v)) := by
  unfold get lookup at h
  cases hd : S.dict o name with
  | some v' =>
    rw [hd] at h
    cases h
    exact .inl hd
  | none =>
    rw [hd] at h
    dsimp only at h
    cases hA : A o name with
    | none => rw [hA] at h; cases h
    | some a =>
      rw [hA] at h
      cases a with
      | plain v' => cases h; exact .inr ⟨rfl, rfl, rfl⟩
      | desc b c =>
        dsimp only at h
        cases hb : bind A n S o b c with
        | mk x S1 =>
          rw [hb] at h
          cases x with
          | error e => cases h
          | ok w =>
            cases h
            obtain ⟨hc, hn⟩ := hO o name b c hA
            have := bind_result hb hc
            rw [hn] at this
            exact .inl this

/-! ### Histories -/

def Op.isDirect : Op → Bool
  | .direct .. => true
  | _ => false

/-- A program that reads attributes of instances only in the usual way. -/
def Plain (ops : List Op) : Prop := ∀ op ∈ ops, op.isDirect = false

theorem exec_inv {A : Attrs} {N : Nat} {n : Nat} {S : State} {op : Op} (hp : op.isDirect = false) (hS : Inv A N S) :
    Inv A N (exec A n S op) := by
  cases op with
  | get o name => exact get_inv hS
  | direct o b c => cases hp
  | die o => exact ⟨hS.len, hS.own, hS.entry, hS.inj⟩

theorem run_inv {A : Attrs} {N : Nat} {n : Nat} {ops : List Op} : ∀ {S : State}, Plain ops → Inv A N S → Inv A N (run A n S ops) := by
  induction ops with
  | nil => intro S _ h; exact h
  | cons op ops ih =>
    intro S hp h
    exact ih (fun x hx => hp x (.tail _ hx)) (exec_inv (hp op (.head _)) h)

theorem exec_heap (A : Attrs) (n : Nat) (S : State) (op : Op) : ∃ t, (exec A n S op).heap = S.heap ++ t := by
  cases op with
  | get o name => exact (get_grow A n S o name).heap
  | direct o b c => exact (bind_grow A n S o b c).heap
  | die o => exact ⟨[], by simp [exec]⟩

theorem run_heap (A : Attrs) (n : Nat) (ops : List Op) : ∀ S : State, ∃ t, (run A n S ops).heap = S.heap ++ t := by
  induction ops with
  | nil => intro S; exact ⟨[], by simp [run]⟩
  | cons op ops ih =>
    intro S
    obtain ⟨t, ht⟩ := exec_heap A n S op
    obtain ⟨t', ht'⟩ := ih (exec A n S op)
    exact ⟨t ++ t', by show (run A n (exec A n S op) ops).heap = _; rw [ht', ht, List.append_assoc]⟩

/-- Entries never change, and none appear but under the names of decorated classes. -/
theorem run_dict {A : Attrs} {n : Nat} {ops : List Op} : ∀ {S : State}, OwnName A S → Plain ops → ∀ o name,
    (∀ v, S.dict o name = some v → (run A n S ops).dict o name = some v) ∧
    (¬ Desc A o name → (run A n S ops).dict o name = S.dict o name) := by
  induction ops with
  | nil => intro S _ _ o name; exact ⟨fun _ h => h, fun _ => rfl⟩
  | cons op ops ih =>
    intro S hO hp o name
    have h2 := ih (hO.append (exec_heap A n S op)) (fun x hx => hp x (.tail _ hx)) o name
    have h1 : (∀ v, S.dict o name = some v → (exec A n S op).dict o name = some v) ∧
        (¬ Desc A o name → (exec A n S op).dict o name = S.dict o name) := by
      have hop := hp op (.head _)
      cases op with
      | get o' name' =>
        have := get_adds (A := A) (n := n) (o := o') (name := name') hO
        refine ⟨fun v hv => this.keep hv, fun hD => ?_⟩
        rcases this o name with h | ⟨rfl, -, h⟩
        · exact h
        · exact absurd h hD
      | direct o b c => cases hop
      | die o => exact ⟨fun _ h => h, fun _ => rfl⟩
    refine ⟨fun v hv => h2.1 v (h1.1 v hv), fun hD => ?_⟩
    show (run A n (exec A n S op) ops).dict o name = _
    rw [h2.2 hD, h1.2 hD]

end Big.BoundInner
