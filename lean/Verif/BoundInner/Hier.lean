import Verif.BoundInner.Inv
/-! # Inheritance between bound inner classes -/
namespace Big.BoundInner

/-- `k` is decorated in the type of `o`. -/
def Decorated (A : Attrs) (S : State) (o : Outer) (k : Cls) : Prop := ∃ b, A o (S.info k).name = some (.desc b k)

/-- The bound version of a decorated class that `o` holds. -/
def boundVersion (A : Attrs) (S : State) (o : Outer) (k : Cls) : Option Cls :=
  match A o (S.info k).name with
  | some (.desc _ c) =>
    if c = k then match S.dict o (S.info k).name with | some (.cls w) => some w | _ => none
    else none
  | _ => none

theorem boundVersion_some {A : Attrs} {S : State} {o : Outer} {k w : Cls} :
    boundVersion A S o k = some w ↔ Decorated A S o k ∧ S.dict o (S.info k).name = some (.cls w) := by
  unfold boundVersion Decorated
  cases hA : A o (S.info k).name with
  | none => simp
  | some a =>
    cases a with
    | plain v => simp
    | desc b c =>
      dsimp only
      by_cases hc : c = k
      · subst hc
        rw [if_pos rfl]
        cases S.dict o (S.info c).name with
        | none => simp
        | some v => cases v <;> simp
      · rw [if_neg hc]; simp [hc]

theorem boundVersion_none {A : Attrs} {S : State} {o : Outer} {k : Cls} (h : ¬ Decorated A S o k) :
    boundVersion A S o k = none := by
  cases hb : boundVersion A S o k with
  | none => rfl
  | some w => exact absurd (boundVersion_some.1 hb).1 h

/-- A program's classes and outer instances before any access. -/
structure Hier (A : Attrs) (S : State) (rank : Outer → String → Nat) : Prop where
  /-- a decorated class is an attribute under its own name -/
  own : ∀ o name b c, A o name = some (.desc b c) → c < S.heap.length ∧ (S.info c).name = name
  /-- nothing is cached -/
  empty : ∀ o name, Desc A o name → S.dict o name = none
  /-- the interpreter computed the MROs -/
  mro : ∀ c, c < S.heap.length → linearize (fun b => (S.info b).mro) c (S.info c).bases = some (S.info c).mro ∧
    ∀ b ∈ (S.info c).bases, b < c
  /-- as the documentation demands: a base that is a subclass of a decorated class is decorated -/
  up : ∀ o c b, Decorated A S o c → b ∈ (S.info c).bases → (∃ j ∈ (S.info b).mro, Decorated A S o j) → Decorated A S o b
  /-- an ordinary attribute with the name of a base is not a class derived from it -/
  clash : ∀ o c b v, Decorated A S o c → b ∈ (S.info c).bases →
    S.dict o (S.info b).name = some v ∨ A o (S.info b).name = some (.plain v) →
    ∀ w, v = .cls w → ∃ p r, (S.info w).bases = p :: r ∧ p ≠ b
  classes : ∀ o name w, S.dict o name = some (.cls w) ∨ A o name = some (.plain (.cls w)) → w < S.heap.length
  /-- no cycle among the names of decorated classes and of their bases -/
  rank : ∀ o c b, Decorated A S o c → b ∈ (S.info c).bases → (S.info b).name ≠ (S.info c).name →
    Desc A o (S.info b).name → rank o (S.info b).name < rank o (S.info c).name

section
variable {A : Attrs} {S0 : State} {rank : Outer → String → Nat} (H : Hier A S0 rank)

include H in
theorem Hier.mro' {c : Cls} (hc : c < S0.heap.length) : ∃ R, (S0.info c).mro = c :: R ∧
    Merge ((S0.info c).bases.map (fun b => (S0.info b).mro) ++ [(S0.info c).bases]) R ∧ (S0.info c).bases.Nodup ∧
    ∀ b ∈ (S0.info c).bases, b < c := by
  obtain ⟨h1, h2⟩ := H.mro c hc
  obtain ⟨r, h3, h4, h5⟩ := linearize_head h1
  exact ⟨r, h3, h4, h5, h2⟩

include H in
theorem Hier.mro_le {c : Cls} (hc : c < S0.heap.length) : (∀ x ∈ (S0.info c).mro, x ≤ c) ∧ (S0.info c).mro.Nodup := by
  induction c using Nat.strongRecOn with
  | ind c ih =>
    obtain ⟨R, h1, h2, h3, h4⟩ := H.mro' hc
    have hR : ∀ x ∈ R, x < c := by
      intro x hx
      obtain ⟨l, hl, hxl⟩ := (merge_mem h2 x).1 hx
      rcases List.mem_append.1 hl with hl | hl
      · obtain ⟨b, hb, rfl⟩ := List.mem_map.1 hl
        have := (ih b (h4 b hb) (by have := h4 b hb; omega)).1 x hxl
        have := h4 b hb
        omega
      · simp only [List.mem_cons, List.not_mem_nil, or_false] at hl
        subst hl
        exact h4 x hxl
    rw [h1]
    constructor
    · intro x hx
      cases hx with
      | head => exact Nat.le_refl _
      | tail _ hx => exact Nat.le_of_lt (hR x hx)
    · refine List.nodup_cons.2 ⟨fun h => ?_, merge_nodup h2⟩
      have := hR c h
      omega

/-- The state during a run. -/
structure Inv2 (A : Attrs) (S0 S : State) : Prop where
  inv : Inv A S0.heap.length S
  heap : ∃ t, S.heap = S0.heap ++ t
  other : ∀ o name, ¬ Desc A o name → S.dict o name = S0.dict o name
  closed : ∀ o name b k w, A o name = some (.desc b k) → S.dict o name = some (.cls w) → ∀ j ∈ (S0.info k).mro,
    Decorated A S0 o j → ∃ w', S.dict o (S0.info j).name = some (.cls w')
  mro : ∀ o name b k w, A o name = some (.desc b k) → S.dict o name = some (.cls w) →
    (S.info w).mro = expand (boundVersion A S o) (S0.info k).mro
  bases : ∀ o name b k w, A o name = some (.desc b k) → S.dict o name = some (.cls w) →
    (S.info w).bases = k :: (if ∃ x ∈ (S0.info k).bases, (boundVersion A S o x).isSome then
      (S0.info k).bases.map (rep (boundVersion A S o)) else [])

theorem Inv2.info {S : State} (h : Inv2 A S0 S) {k : Cls} (hk : k < S0.heap.length) : S.info k = S0.info k :=
  info_append h.heap hk

theorem decorated_iff {S : State} (h : Inv2 A S0 S) {o : Outer} {k : Cls} (hk : k < S0.heap.length) :
    Decorated A S o k ↔ Decorated A S0 o k := by unfold Decorated; rw [h.info hk]

theorem Inv2.fresh {S : State} (h : Inv2 A S0 S) (o : Outer) : Fresh (boundVersion A S o) S0.heap.length := by
  constructor
  · intro k k' hk hb
    obtain ⟨⟨b, hA⟩, hd⟩ := boundVersion_some.1 hb
    obtain ⟨w, _, _, h1, h2, -⟩ := h.inv.entry _ _ _ _ _ hA hd
    cases h1
    exact h2
  · intro j k w hj hk h1 h2
    obtain ⟨⟨b, hA⟩, hd⟩ := boundVersion_some.1 h1
    obtain ⟨⟨b', hA'⟩, hd'⟩ := boundVersion_some.1 h2
    obtain ⟨-, he⟩ := h.inv.inj _ _ _ _ _ ⟨_, _, hA⟩ ⟨_, _, hA'⟩ hd hd'
    rw [he, hA'] at hA
    cases hA
    rfl

/-- A bound version that is there stays. -/
theorem boundVersion_stable {S S' : State} {o o' : Outer} {P : String → Prop} (h : Inv2 A S0 S) (hg : Grow S S')
    (ha : Adds o P S S') {j : Cls} (hj : j < S0.heap.length)
    (hset : Decorated A S0 o' j → ∃ w, S.dict o' (S0.info j).name = some (.cls w)) :
    boundVersion A S' o' j = boundVersion A S o' j := by
  have hjS : j < S.heap.length := by have := h.inv.len; omega
  have hi : S'.info j = S.info j := hg.info hjS
  have hi0 := h.info hj
  by_cases hD : Decorated A S0 o' j
  · obtain ⟨w, hw⟩ := hset hD
    have h1 : boundVersion A S o' j = some w := boundVersion_some.2 ⟨(decorated_iff h hj).2 hD, by rw [hi0]; exact hw⟩
    have h2 : boundVersion A S' o' j = some w := by
      refine boundVersion_some.2 ⟨?_, ?_⟩
      · unfold Decorated; rw [hi, hi0]; exact hD
      · rw [hi, hi0]; exact ha.keep hw
    rw [h1, h2]
  · rw [boundVersion_none (fun hx => hD ((decorated_iff h hj).1 hx)), boundVersion_none]
    intro hx
    unfold Decorated at hx hD
    rw [hi, hi0] at hx
    exact hD hx

theorem expand_congr {p q : Cls → Option Cls} {l : List Cls} (h : ∀ x ∈ l, p x = q x) : expand p l = expand q l := by
  induction l with
  | nil => rfl
  | cons k l ih =>
    rw [expand_cons, expand_cons, ih fun x hx => h x (.tail _ hx)]
    congr 1
    unfold exp1
    rw [h k (.head _)]

theorem expand_id {p : Cls → Option Cls} {l : List Cls} (h : ∀ x ∈ l, p x = none) : expand p l = l := by
  induction l with
  | nil => rfl
  | cons k l ih =>
    rw [expand_cons, ih fun x hx => h x (.tail _ hx), exp1, h k (.head _)]
    rfl

theorem merge_self {l : List Cls} (h : l.Nodup) : Merge [l, []] l := by
  induction l with
  | nil => exact .nil (by simp)
  | cons k l ih =>
    obtain ⟨h1, h2⟩ := List.nodup_cons.1 h
    refine .cons (pick_spec.2 ⟨[], l, [[]], rfl, by simpa using h1, by simp⟩) ?_
    have : ([k :: l, []] : List (List Cls)).map (pop k) = [l, []] := by simp [pop]
    rw [this]
    exact ih h2

include H in
/-- The MRO of a new bound class. -/
theorem wrap_mro {S : State} (h : Inv2 A S0 S) {o : Outer} {b : Bool} {c : Cls} {name : String}
    (hA : A o name = some (.desc b c))
    (hset : ∀ x ∈ (S0.info c).bases, Decorated A S0 o x → (boundVersion A S o x).isSome) (w : Cls) :
    linearize (fun b => (S.info b).mro) w
      (if ((S0.info c).bases.map (fun x => (rep (boundVersion A S o) x, (boundVersion A S o x).isSome))).any (·.2)
        then c :: ((S0.info c).bases.map (fun x => (rep (boundVersion A S o) x, (boundVersion A S o x).isSome))).map (·.1) else [c])
      = some (w :: c :: expand (boundVersion A S o) (S0.info c).mro.tail) := by
  obtain ⟨hc, hname⟩ := H.own o name b c hA
  have hDc : Decorated A S0 o c := ⟨b, by rw [hname]; exact hA⟩
  obtain ⟨R, h1, h2, h3, h4⟩ := H.mro' hc
  have hF := h.fresh o
  have hcR : c ∉ R := by
    have := (H.mro_le hc).2
    rw [h1] at this
    exact (List.nodup_cons.1 this).1
  have hb : ∀ x ∈ (S0.info c).bases, x < S0.heap.length := fun x hx => by have := h4 x hx; omega
  have hmb : ∀ x ∈ (S0.info c).bases, ∀ y ∈ (S0.info x).mro, y < c := fun x hx y hy => by
    have := (H.mro_le (hb x hx)).1 y hy
    have := h4 x hx
    omega
  have hself : ∀ x ∈ (S0.info c).bases, x ∈ (S0.info x).mro := fun x hx => by
    obtain ⟨R', h1', -⟩ := H.mro' (hb x hx)
    rw [h1']; simp
  have hRb : ∀ y ∈ R, ∃ x ∈ (S0.info c).bases, y ∈ (S0.info x).mro := by
    intro y hy
    obtain ⟨l, hl, hyl⟩ := (merge_mem h2 y).1 hy
    rcases List.mem_append.1 hl with hl | hl
    · obtain ⟨x, hx, rfl⟩ := List.mem_map.1 hl
      exact ⟨x, hx, hyl⟩
    · simp only [List.mem_cons, List.not_mem_nil, or_false] at hl
      subst hl
      exact ⟨y, hyl, hself y hyl⟩
  have hundec : ∀ x ∈ (S0.info c).bases, boundVersion A S o x = none → ∀ y ∈ (S0.info x).mro, boundVersion A S o y = none := by
    intro x hx hn y hy
    refine boundVersion_none fun hD => ?_
    have hyN : y < S0.heap.length := by have := hmb x hx y hy; omega
    have hDy := (decorated_iff h hyN).1 hD
    have hDx := H.up o c x hDc hx ⟨y, hy, hDy⟩
    have := hset x hx hDx
    rw [hn] at this
    cases this
  rw [h1, List.tail_cons]
  have hmc : (S.info c).mro = c :: R := by rw [h.info hc, h1]
  by_cases hany : ∃ x ∈ (S0.info c).bases, (boundVersion A S o x).isSome
  · rw [if_pos (by simpa using hany)]
    simp only [List.map_map]
    have hmap : (S0.info c).bases.map ((fun x : Cls × Bool => x.1) ∘ fun x => (rep (boundVersion A S o) x, (boundVersion A S o x).isSome)) =
        (S0.info c).bases.map (rep (boundVersion A S o)) := rfl
    rw [hmap]
    have hcrep : c ∉ (S0.info c).bases.map (rep (boundVersion A S o)) := by
      intro hm
      obtain ⟨x, hx, he⟩ := List.mem_map.1 hm
      rcases rep_cases (boundVersion A S o) x with ⟨h5, h6⟩ | ⟨x', h5, h6⟩
      · have := h4 x hx; omega
      · have := hF.new (hb x hx) h5; omega
    have hnd : (c :: (S0.info c).bases.map (rep (boundVersion A S o))).Nodup := by
      refine List.nodup_cons.2 ⟨hcrep, ?_⟩
      have : ∀ l : List Cls, l.Nodup → (∀ x ∈ l, x < S0.heap.length) → (l.map (rep (boundVersion A S o))).Nodup := by
        intro l
        induction l with
        | nil => intro _ _; exact List.nodup_nil
        | cons a l ih =>
          intro hn hl
          obtain ⟨hn1, hn2⟩ := List.nodup_cons.1 hn
          rw [List.map_cons]
          refine List.nodup_cons.2 ⟨?_, ih hn2 fun x hx => hl x (.tail _ hx)⟩
          intro hm
          obtain ⟨x, hx, he⟩ := List.mem_map.1 hm
          rw [rep_inj hF (hl x (.tail _ hx)) (hl a (.head _)) he] at hx
          exact hn1 hx
      exact this _ h3 hb
    unfold linearize
    rw [if_pos hnd]
    have hlists : (c :: (S0.info c).bases.map (rep (boundVersion A S o))).map (fun b => (S.info b).mro) =
        (c :: R) :: ((S0.info c).bases.map (fun b => (S0.info b).mro)).map (expand (boundVersion A S o)) := by
      rw [List.map_cons, hmc, List.map_map, List.map_map]
      congr 1
      refine List.map_congr_left ?_
      intro x hx
      show (S.info (rep (boundVersion A S o) x)).mro = expand (boundVersion A S o) (S0.info x).mro
      rcases rep_cases (boundVersion A S o) x with ⟨h5, h6⟩ | ⟨x', h5, h6⟩
      · rw [h6, h.info (hb x hx), expand_id (hundec x hx h5)]
      · rw [h6]
        obtain ⟨⟨bx, hAx⟩, hd⟩ := boundVersion_some.1 h5
        exact h.mro o _ bx x x' hAx hd
    dsimp only
    rw [hlists, (merge_iff _ (c :: expand (boundVersion A S o) R)).2]
    · rfl
    have hcE : ∀ x ∈ (S0.info c).bases, c ∉ expand (boundVersion A S o) (S0.info x).mro := by
      intro x hx hm
      rw [mem_expand_old hF (fun y hy => by have := hmb x hx y hy; omega) hc] at hm
      have := hmb x hx c hm
      omega
    refine .cons (pick_spec.2 ⟨[], R, _, rfl, ?_, by simp⟩) ?_
    · intro m hm
      simp only [List.mem_cons, List.cons_append, List.mem_append, List.mem_map, List.not_mem_nil, or_false] at hm
      rcases hm with rfl | ⟨_, ⟨x, hx, rfl⟩, rfl⟩ | rfl
      · exact hcR
      · intro hm; exact hcE x hx (List.mem_of_mem_tail hm)
      · exact hcrep
    · have e1 : ((c :: R) :: ((S0.info c).bases.map (fun b => (S0.info b).mro)).map (expand (boundVersion A S o)) ++
          [c :: (S0.info c).bases.map (rep (boundVersion A S o))]).map (pop c) =
          R :: (((S0.info c).bases.map (fun b => (S0.info b).mro)).map (expand (boundVersion A S o)) ++
          [(S0.info c).bases.map (rep (boundVersion A S o))]) := by
        simp only [List.cons_append, List.map_cons, List.map_append, List.map_map, List.map_nil]
        congr 1
        · simp [pop]
        congr 1
        · refine List.map_congr_left ?_
          intro x hx
          show pop c (expand (boundVersion A S o) (S0.info x).mro) = expand (boundVersion A S o) (S0.info x).mro
          unfold pop
          rw [if_neg]
          intro hh
          exact hcE x hx (List.mem_of_head? hh)
        · simp [pop]
      rw [e1]
      refine merge_expand hF h2 _ _ rfl ?_ ?_ ?_
      · intro l hl x hx
        rcases List.mem_append.1 hl with hl | hl
        · obtain ⟨y, hy, rfl⟩ := List.mem_map.1 hl
          have := hmb y hy x hx; omega
        · simp only [List.mem_cons, List.not_mem_nil, or_false] at hl
          subst hl
          exact hb x hx
      · intro l hl
        rcases List.mem_append.1 hl with hl | hl
        · obtain ⟨y, hy, rfl⟩ := List.mem_map.1 hl
          exact (H.mro_le (hb y hy)).2
        · simp only [List.mem_cons, List.not_mem_nil, or_false] at hl
          subst hl
          exact h3
      · intro x hx
        exact ⟨_, List.mem_map_of_mem hx, hself x hx⟩
  · rw [if_neg (by simpa using hany)]
    have hnone : ∀ x ∈ (S0.info c).bases, boundVersion A S o x = none := by
      intro x hx
      cases hv : boundVersion A S o x with
      | none => rfl
      | some v => exact absurd ⟨x, hx, by rw [hv]; rfl⟩ hany
    have hR : expand (boundVersion A S o) R = R := expand_id fun y hy => by
      obtain ⟨x, hx, hyx⟩ := hRb y hy
      exact hundec x hx (hnone x hx) y hyx
    rw [hR]
    unfold linearize
    rw [if_pos (by simp)]
    dsimp only
    rw [List.map_cons, List.map_nil, hmc, (merge_iff _ (c :: R)).2]
    · rfl
    · refine .cons (pick_spec.2 ⟨[], R, [[c]], rfl, ?_, by simp⟩) ?_
      · intro m hm
        simp only [List.cons_append, List.nil_append, List.mem_cons, List.not_mem_nil, or_false] at hm
        rcases hm with rfl | rfl
        · exact hcR
        · simp
      · have : ([c :: R] ++ [[c]] : List (List Cls)).map (pop c) = [R, []] := by simp [pop]
        rw [this]
        exact merge_self (merge_nodup h2)

/-- How a lookup of `name` changes the state. -/
def Step (A : Attrs) (rank : Outer → String → Nat) (S0 : State) (o : Outer) (ρ : Nat) (S S' : State) : Prop :=
  Inv2 A S0 S' ∧ Grow S S' ∧ Adds o (fun m => Desc A o m ∧ rank o m < ρ) S S'

theorem Step.refl {o : Outer} {ρ : Nat} {S : State} (h : Inv2 A S0 S) : Step A rank S0 o ρ S S := ⟨h, .refl S, .refl S⟩

theorem Step.trans {o : Outer} {ρ : Nat} {S S' S'' : State} (h : Step A rank S0 o ρ S S') (h' : Step A rank S0 o ρ S' S'') :
    Step A rank S0 o ρ S S'' := ⟨h'.1, h.2.1.trans h'.2.1, h.2.2.trans h'.2.2⟩

theorem isBoundVersion_old {S : State} (h : Inv2 A S0 S) {v : Val} (hv : ∀ w, v = .cls w → w < S0.heap.length) (b : Cls) :
    isBoundVersion S v b = isBoundVersion S0 v b := by
  cases v with
  | other n => rfl
  | cls w =>
    unfold isBoundVersion
    dsimp only
    rw [h.info (hv w rfl)]

include H in
/-- The end of `__get__`. -/
theorem wrap_step {S : State} (h : Inv2 A S0 S) {o : Outer} {b : Bool} {c : Cls} {name : String}
    (hA : A o name = some (.desc b c)) (hd : S.dict o name = none)
    (hset : ∀ x ∈ (S0.info c).bases, Decorated A S0 o x → (boundVersion A S o x).isSome) :
    ∃ S', wrap o b c S ((S0.info c).bases.map (fun x => (rep (boundVersion A S o) x, (boundVersion A S o x).isSome))) =
      (.ok S.heap.length, S') ∧ Step A rank S0 o (rank o name + 1) S S' ∧ S'.dict o name = some (.cls S.heap.length) := by
  obtain ⟨hc, hname⟩ := H.own o name b c hA
  have hDc : Decorated A S0 o c := ⟨b, by rw [hname]; exact hA⟩
  have hlin := wrap_mro H h hA hset S.heap.length
  have hinv := wrap_inv h.inv hA ((S0.info c).bases.map (fun x => (rep (boundVersion A S o) x, (boundVersion A S o x).isSome)))
  have hgrow := wrap_grow o b c S ((S0.info c).bases.map (fun x => (rep (boundVersion A S o) x, (boundVersion A S o x).isSome)))
  cases hw : wrap o b c S ((S0.info c).bases.map (fun x => (rep (boundVersion A S o) x, (boundVersion A S o x).isSome))) with
  | mk res S' =>
    rw [hw] at hinv hgrow
    have hnameS : (S.info c).name = name := by rw [h.info hc, hname]
    unfold wrap at hw
    dsimp only at hw
    rw [hlin] at hw
    dsimp only at hw
    rw [hnameS] at hw
    obtain ⟨hres, hS'⟩ := Prod.mk.inj hw
    subst hres
    have hdict : ∀ o' m, S'.dict o' m = if o' = o ∧ m = name then some (.cls S.heap.length) else S.dict o' m := by
      intro o' m; rw [← hS']
    have hadds : Adds o (fun m => Desc A o m ∧ rank o m < rank o name + 1) S S' := by
      intro o' m
      rw [hdict]
      by_cases hcase : o' = o ∧ m = name
      · obtain ⟨rfl, rfl⟩ := hcase
        exact .inr ⟨rfl, hd, ⟨b, c, hA⟩, Nat.lt_succ_self _⟩
      · rw [if_neg hcase]; exact .inl rfl
    have hnew : S'.info S.heap.length = ⟨name, (if ((S0.info c).bases.map (fun x => (rep (boundVersion A S o) x, (boundVersion A S o x).isSome))).any (·.2)
        then c :: ((S0.info c).bases.map (fun x => (rep (boundVersion A S o) x, (boundVersion A S o x).isSome))).map (·.1) else [c]),
        S.heap.length :: c :: expand (boundVersion A S o) (S0.info c).mro.tail, if b then .bind o c else .inherit⟩ := by
      rw [← hS']
      unfold State.info
      rw [List.getD_eq_getElem?_getD, List.getElem?_append_right (Nat.le_refl _)]
      simp only [Nat.sub_self, List.getElem?_cons_zero, Option.getD_some]
    obtain ⟨R, h1, h2, h3, h4⟩ := H.mro' hc
    have hb : ∀ x ∈ (S0.info c).bases, x < S0.heap.length := fun x hx => by have := h4 x hx; omega
    have hself : ∀ x ∈ (S0.info c).bases, x ∈ (S0.info x).mro := fun x hx => by
      obtain ⟨R', h1', -⟩ := H.mro' (hb x hx)
      rw [h1']; simp
    have hRb : ∀ y ∈ R, ∃ x ∈ (S0.info c).bases, y ∈ (S0.info x).mro := by
      intro y hy
      obtain ⟨l, hl, hyl⟩ := (merge_mem h2 y).1 hy
      rcases List.mem_append.1 hl with hl | hl
      · obtain ⟨x, hx, rfl⟩ := List.mem_map.1 hl
        exact ⟨x, hx, hyl⟩
      · simp only [List.mem_cons, List.not_mem_nil, or_false] at hl
        subst hl
        exact ⟨y, hyl, hself y hyl⟩
    have hRset : ∀ y ∈ R, y < S0.heap.length ∧ (Decorated A S0 o y → ∃ w', S.dict o (S0.info y).name = some (.cls w')) := by
      intro y hy
      obtain ⟨x, hx, hyx⟩ := hRb y hy
      have hyN : y < S0.heap.length := by
        have := (H.mro_le (hb x hx)).1 y hyx
        have := hb x hx
        omega
      refine ⟨hyN, fun hD => ?_⟩
      have hDx := H.up o c x hDc hx ⟨y, hyx, hD⟩
      obtain ⟨x', hx'⟩ := Option.isSome_iff_exists.1 (hset x hx hDx)
      obtain ⟨⟨bx, hAx⟩, hdx⟩ := boundVersion_some.1 hx'
      rw [h.info (hb x hx)] at hAx hdx
      exact h.closed o _ bx x x' hAx hdx y hyx hD
    have hstabR : ∀ y ∈ R, boundVersion A S' o y = boundVersion A S o y := fun y hy =>
      boundVersion_stable h hgrow hadds (hRset y hy).1 (hRset y hy).2
    have hbvc : boundVersion A S' o c = some S.heap.length := by
      have hic : S'.info c = S0.info c := by
        rw [hgrow.info (by have := h.inv.len; omega), h.info hc]
      refine boundVersion_some.2 ⟨?_, ?_⟩
      · unfold Decorated; rw [hic]; exact hDc
      · rw [hic, hname, hdict, if_pos ⟨rfl, rfl⟩]
    have hstabB : ∀ x ∈ (S0.info c).bases, boundVersion A S' o x = boundVersion A S o x := by
      intro x hx
      refine boundVersion_stable h hgrow hadds (hb x hx) fun hD => ?_
      obtain ⟨x', hx'⟩ := Option.isSome_iff_exists.1 (hset x hx hD)
      obtain ⟨-, hdx⟩ := boundVersion_some.1 hx'
      rw [h.info (hb x hx)] at hdx
      exact ⟨x', hdx⟩
    -- entries other than the new one
    have hold : ∀ o' m b' k w, A o' m = some (.desc b' k) → ¬ (o' = o ∧ m = name) → S'.dict o' m = some (.cls w) →
        S.dict o' m = some (.cls w) ∧ S'.info w = S.info w ∧
          (∀ j ∈ (S0.info k).mro, boundVersion A S' o' j = boundVersion A S o' j) ∧ k < S0.heap.length := by
      intro o' m b' k w hA' hne hd'
      rw [hdict, if_neg hne] at hd'
      obtain ⟨w', _, _, he, -, hlt, -⟩ := h.inv.entry _ _ _ _ _ hA' hd'
      cases he
      obtain ⟨hk, -⟩ := H.own o' m b' k hA'
      refine ⟨hd', hgrow.info hlt, fun j hj => ?_, hk⟩
      have hjN : j < S0.heap.length := by have := (H.mro_le hk).1 j hj; omega
      exact boundVersion_stable h hgrow hadds hjN (h.closed o' m b' k w hA' hd' j hj)
    refine ⟨S', rfl, ⟨⟨hinv, ?_, ?_, ?_, ?_, ?_⟩, hgrow, hadds⟩, by rw [hdict, if_pos ⟨rfl, rfl⟩]⟩
    · obtain ⟨t, ht⟩ := h.heap
      obtain ⟨t', ht'⟩ := hgrow.heap
      exact ⟨t ++ t', by rw [ht', ht, List.append_assoc]⟩
    · intro o' m hD
      rw [hdict, if_neg, h.other o' m hD]
      rintro ⟨rfl, rfl⟩
      exact hD ⟨b, c, hA⟩
    · intro o' m b' k w hA' hd' j hj hDj
      by_cases hcase : o' = o ∧ m = name
      · obtain ⟨rfl, rfl⟩ := hcase
        rw [hA] at hA'
        cases hA'
        rw [h1] at hj
        cases hj with
        | head => exact ⟨_, by rw [hname, hdict, if_pos ⟨rfl, rfl⟩]⟩
        | tail _ hj =>
          obtain ⟨w', hw'⟩ := (hRset j hj).2 hDj
          exact ⟨w', hadds.keep hw'⟩
      · obtain ⟨hd0, -, -, -⟩ := hold o' m b' k w hA' hcase hd'
        obtain ⟨w', hw'⟩ := h.closed o' m b' k w hA' hd0 j hj hDj
        exact ⟨w', hadds.keep hw'⟩
    · intro o' m b' k w hA' hd'
      by_cases hcase : o' = o ∧ m = name
      · obtain ⟨rfl, rfl⟩ := hcase
        rw [hA] at hA'
        cases hA'
        rw [hdict, if_pos ⟨rfl, rfl⟩] at hd'
        cases hd'
        rw [hnew]
        dsimp only
        rw [h1, List.tail_cons, expand_cons, expand_congr hstabR]
        unfold exp1
        rw [hbvc]
        rfl
      · obtain ⟨hd0, hi, hst, -⟩ := hold o' m b' k w hA' hcase hd'
        rw [hi, h.mro o' m b' k w hA' hd0]
        exact (expand_congr hst).symm
    · intro o' m b' k w hA' hd'
      by_cases hcase : o' = o ∧ m = name
      · obtain ⟨rfl, rfl⟩ := hcase
        rw [hA] at hA'
        cases hA'
        rw [hdict, if_pos ⟨rfl, rfl⟩] at hd'
        cases hd'
        rw [hnew]
        dsimp only
        by_cases hany : ∃ x ∈ (S0.info c).bases, (boundVersion A S o' x).isSome
        · rw [if_pos (by simpa using hany), if_pos]
          · rw [List.map_map]
            congr 1
            refine List.map_congr_left fun x hx => ?_
            show rep (boundVersion A S o') x = rep (boundVersion A S' o') x
            unfold rep
            rw [hstabB x hx]
          · obtain ⟨x, hx, hs⟩ := hany
            exact ⟨x, hx, by rw [hstabB x hx]; exact hs⟩
        · rw [if_neg (by simpa using hany), if_neg]
          rintro ⟨x, hx, hs⟩
          rw [hstabB x hx] at hs
          exact hany ⟨x, hx, hs⟩
      · obtain ⟨hd0, hi, -, hk⟩ := hold o' m b' k w hA' hcase hd'
        have hst : ∀ x ∈ (S0.info k).bases, boundVersion A S' o' x = boundVersion A S o' x := by
          obtain ⟨R', h1', h2', -, h4'⟩ := H.mro' hk
          intro x hx
          have hxR : x ∈ (S0.info k).mro := by
            rw [h1']
            exact .tail _ ((merge_mem h2' x).2 ⟨_, by simp, hx⟩)
          exact (hold o' m b' k w hA' hcase hd').2.2.1 x hxR
        rw [hi, h.bases o' m b' k w hA' hd0]
        congr 1
        by_cases hany : ∃ x ∈ (S0.info k).bases, (boundVersion A S o' x).isSome
        · rw [if_pos hany, if_pos]
          · refine List.map_congr_left fun x hx => ?_
            unfold rep
            rw [hst x hx]
          · obtain ⟨x, hx, hs⟩ := hany
            exact ⟨x, hx, by rw [hst x hx]; exact hs⟩
        · rw [if_neg hany, if_neg]
          rintro ⟨x, hx, hs⟩
          rw [hst x hx] at hs
          exact hany ⟨x, hx, hs⟩

include H in
/-- `__get__` succeeds if the recursion limit allows. -/
theorem bind_step : ∀ (n : Nat) (S : State) (o : Outer) (b : Bool) (c : Cls) (name : String), Inv2 A S0 S →
    A o name = some (.desc b c) → S.dict o name = none → rank o name < n →
    ∃ w S', bind A n S o b c = (.ok w, S') ∧ Step A rank S0 o (rank o name + 1) S S' ∧ S'.dict o name = some (.cls w)
  | 0, _, _, _, _, _, _, _, _, h => absurd h (Nat.not_lt_zero _)
  | n + 1, S, o, b, c, name, hS, hA, hd, hr => by
    obtain ⟨hc, hname⟩ := H.own o name b c hA
    have hDc : Decorated A S0 o c := ⟨b, by rw [hname]; exact hA⟩
    obtain ⟨R, h1, h2, h3, h4⟩ := H.mro' hc
    have hb : ∀ x ∈ (S0.info c).bases, x < S0.heap.length := fun x hx => by have := h4 x hx; omega
    -- one round
    have hstep : ∀ (T : State) (x : Cls), Inv2 A S0 T → x ∈ (S0.info c).bases → ∃ T',
        step (fun S name => lookup A (bind A n) S o name) name T x =
          (.ok (rep (boundVersion A T' o) x, (boundVersion A T' o x).isSome), T') ∧ Step A rank S0 o (rank o name) T T' ∧
        (Decorated A S0 o x → (boundVersion A T' o x).isSome) := by
      intro T x hT hx
      have hxN := hb x hx
      have hix := hT.info hxN
      have hundec : ∀ T', Inv2 A S0 T' → ¬ Decorated A S0 o x → boundVersion A T' o x = none := fun T' hT' hD =>
        boundVersion_none fun hD' => hD ((decorated_iff hT' hxN).1 hD')
      unfold step
      rw [hix]
      by_cases hn : (S0.info x).name ≠ name
      · rw [if_pos hn]
        -- the value found, in a later state
        have hfound : ∀ (T' : State) (v : Val), Inv2 A S0 T' → (T'.dict o (S0.info x).name = some v ∨
              T'.dict o (S0.info x).name = none ∧ A o (S0.info x).name = some (.plain v)) →
            (∃ w, v = .cls w ∧ isBoundVersion T' v x = .ok true ∧ boundVersion A T' o x = some w) ∨
            (isBoundVersion T' v x = .ok false ∧ boundVersion A T' o x = none ∧ ¬ Decorated A S0 o x) := by
          intro T' v hT' hv
          by_cases hDe : Desc A o (S0.info x).name
          · obtain ⟨b', k, hA'⟩ := hDe
            rcases hv with hv | ⟨-, hv⟩
            · obtain ⟨w, rest, r, rfl, hw1, hw2, hw3⟩ := hT'.inv.entry _ _ _ _ _ hA' hv
              have hib : isBoundVersion T' (.cls w) x = .ok (k == x) := by
                unfold isBoundVersion
                dsimp only
                rw [hw3]
              by_cases hkx : k = x
              · subst hkx
                refine .inl ⟨w, rfl, by rw [hib]; simp, boundVersion_some.2 ⟨?_, ?_⟩⟩
                · exact ⟨b', by rw [hT'.info hxN]; exact hA'⟩
                · rw [hT'.info hxN]; exact hv
              · have hnd : ¬ Decorated A S0 o x := by
                  rintro ⟨b'', h''⟩
                  rw [hA'] at h''
                  cases h''
                  exact hkx rfl
                exact .inr ⟨by rw [hib]; simp [hkx], hundec T' hT' hnd, hnd⟩
            · rw [hA'] at hv; cases hv
          · have hnd : ¬ Decorated A S0 o x := fun ⟨b', h'⟩ => hDe ⟨b', x, h'⟩
            have hv0 : S0.dict o (S0.info x).name = some v ∨ A o (S0.info x).name = some (.plain v) := by
              rcases hv with hv | ⟨-, hv⟩
              · rw [hT'.other o _ hDe] at hv; exact .inl hv
              · exact .inr hv
            refine .inr ⟨?_, hundec T' hT' hnd, hnd⟩
            rw [isBoundVersion_old hT']
            · have hcl := H.clash o c x v hDc hx hv0
              cases v with
              | other n => rfl
              | cls w =>
                obtain ⟨p, r, hw, hp⟩ := hcl w rfl
                unfold isBoundVersion
                dsimp only
                rw [hw]
                simp [hp]
            · rintro w rfl
              exact H.classes o _ w hv0
        cases hd' : T.dict o (S0.info x).name with
        | some v =>
          have hl : lookup A (bind A n) T o (S0.info x).name = (.ok (some v), T) := by unfold lookup; rw [hd']
          dsimp only
          rw [hl]
          dsimp only
          rcases hfound T v hT (.inl hd') with ⟨w, rfl, he, hbv⟩ | ⟨he, hbv, hnd⟩
          · rw [he]
            exact ⟨T, by simp [rep, hbv], .refl hT, fun _ => by rw [hbv]; rfl⟩
          · refine ⟨T, ?_, .refl hT, fun hD => absurd hD hnd⟩
            rw [he, hbv]
            simp [rep, hbv]
        | none =>
          cases hA' : A o (S0.info x).name with
          | none =>
            have hl : lookup A (bind A n) T o (S0.info x).name = (.ok none, T) := by unfold lookup; rw [hd', hA']
            have hnd : ¬ Decorated A S0 o x := by
              rintro ⟨b'', h''⟩
              rw [hA'] at h''
              cases h''
            dsimp only
            rw [hl]
            refine ⟨T, ?_, .refl hT, fun hD => absurd hD hnd⟩
            simp [rep, hundec T hT hnd]
          | some a =>
            cases a with
            | plain v =>
              have hl : lookup A (bind A n) T o (S0.info x).name = (.ok (some v), T) := by unfold lookup; rw [hd', hA']
              dsimp only
              rw [hl]
              dsimp only
              rcases hfound T v hT (.inr ⟨hd', hA'⟩) with ⟨w, rfl, he, hbv⟩ | ⟨he, hbv, hnd⟩
              · rw [he]
                exact ⟨T, by simp [rep, hbv], .refl hT, fun _ => by rw [hbv]; rfl⟩
              · refine ⟨T, ?_, .refl hT, fun hD => absurd hD hnd⟩
                rw [he, hbv]
                simp [rep, hbv]
            | desc b' k =>
              have hrk : rank o (S0.info x).name < rank o name := by
                rw [← hname]
                exact H.rank o c x hDc hx (by rw [hname]; exact hn) ⟨b', k, hA'⟩
              obtain ⟨w, T', hb1, hb2, hb3⟩ := bind_step n T o b' k (S0.info x).name hT hA' hd' (by omega)
              have hl : lookup A (bind A n) T o (S0.info x).name = (.ok (some (.cls w)), T') := by
                unfold lookup; rw [hd', hA']; dsimp only; rw [hb1]
              have hst : Step A rank S0 o (rank o name) T T' :=
                ⟨hb2.1, hb2.2.1, hb2.2.2.mono fun m hm => ⟨hm.1, by omega⟩⟩
              dsimp only
              rw [hl]
              dsimp only
              rcases hfound T' (.cls w) hb2.1 (.inl hb3) with ⟨w', hw', he, hbv⟩ | ⟨he, hbv, hnd⟩
              · cases hw'
                rw [he]
                exact ⟨T', by simp [rep, hbv], hst, fun _ => by rw [hbv]; rfl⟩
              · refine ⟨T', ?_, hst, fun hD => absurd hD hnd⟩
                rw [he]
                simp [rep, hbv]
      · rw [if_neg hn]
        have hn' : (S0.info x).name = name := by
          by_cases h : (S0.info x).name = name
          · exact h
          · exact absurd h hn
        have hnd : ¬ Decorated A S0 o x := by
          rintro ⟨b'', h''⟩
          rw [hn', hA] at h''
          cases h''
          have := h4 _ hx
          omega
        refine ⟨T, ?_, .refl hT, fun hD => absurd hD hnd⟩
        simp [rep, hundec T hT hnd]
    -- the loop
    have hloop : ∀ (bs : List Cls), (∀ x ∈ bs, x ∈ (S0.info c).bases) → ∀ T, Inv2 A S0 T → ∃ T',
        loop (fun S name => lookup A (bind A n) S o name) name T bs =
          (.ok (bs.map fun x => (rep (boundVersion A T' o) x, (boundVersion A T' o x).isSome)), T') ∧
        Step A rank S0 o (rank o name) T T' ∧ ∀ x ∈ bs, Decorated A S0 o x → (boundVersion A T' o x).isSome := by
      intro bs
      induction bs with
      | nil => intro _ T hT; exact ⟨T, rfl, .refl hT, by simp⟩
      | cons x bs ih =>
        intro hbs T hT
        obtain ⟨T1, ha1, ha2, ha3⟩ := hstep T x hT (hbs x (.head _))
        obtain ⟨T2, hb1, hb2, hb3⟩ := ih (fun y hy => hbs y (.tail _ hy)) T1 ha2.1
        have hst : boundVersion A T2 o x = boundVersion A T1 o x := by
          refine boundVersion_stable ha2.1 hb2.2.1 hb2.2.2 (hb x (hbs x (.head _))) fun hD => ?_
          obtain ⟨x', hx'⟩ := Option.isSome_iff_exists.1 (ha3 hD)
          obtain ⟨-, hdx⟩ := boundVersion_some.1 hx'
          rw [ha2.1.info (hb x (hbs x (.head _)))] at hdx
          exact ⟨x', hdx⟩
        refine ⟨T2, ?_, ha2.trans hb2, ?_⟩
        · unfold loop
          rw [ha1]
          dsimp only
          rw [hb1]
          simp only [List.map_cons]
          rw [hst]
          unfold rep
          rw [hst]
        · intro y hy hD
          cases hy with
          | head => rw [hst]; exact ha3 hD
          | tail _ hy => exact hb3 y hy hD
    obtain ⟨T, hl1, hl2, hl3⟩ := hloop (S0.info c).bases (fun _ h => h) S hS
    have hdT : T.dict o name = none := by
      rcases hl2.2.2 o name with h | ⟨-, -, -, h⟩
      · rw [h, hd]
      · omega
    obtain ⟨S', hw1, hw2, hw3⟩ := wrap_step H hl2.1 hA hdT hl3
    refine ⟨T.heap.length, S', ?_, ⟨hw2.1, hl2.2.1.trans hw2.2.1, ?_⟩, hw3⟩
    · unfold bind
      rw [hS.info hc, hname, hl1]
      exact hw1
    · exact (hl2.2.2.mono fun m hm => ⟨hm.1, by omega⟩).trans hw2.2.2

include H in
theorem Hier.inv2 : Inv2 A S0 S0 := by
  have he : ∀ o name v, Desc A o name → S0.dict o name ≠ some v := fun o name v hD h => by
    rw [H.empty o name hD] at h; cases h
  refine ⟨⟨Nat.le_refl _, H.own, ?_, ?_⟩, ⟨[], by simp⟩, fun _ _ _ => rfl, ?_, ?_, ?_⟩
  · intro o name b c v hA hd; exact absurd hd (he o name v ⟨b, c, hA⟩)
  · intro o name _ _ w hD _ h _; exact absurd h (he o name _ hD)
  · intro o name b k w hA hd; exact absurd hd (he o name _ ⟨b, k, hA⟩)
  · intro o name b k w hA hd; exact absurd hd (he o name _ ⟨b, k, hA⟩)
  · intro o name b k w hA hd; exact absurd hd (he o name _ ⟨b, k, hA⟩)

include H in
/-- Every access of an attribute that is there succeeds. -/
theorem get_step {n : Nat} {S : State} {o : Outer} {name : String} (hS : Inv2 A S0 S) (hr : rank o name < n) :
    Step A rank S0 o (rank o name + 1) S (get A n S o name).2 ∧
    (∀ b c, A o name = some (.desc b c) → ∃ w, (get A n S o name).1 = .ok (.cls w) ∧
      (get A n S o name).2.dict o name = some (.cls w)) := by
  cases hd : S.dict o name with
  | some v =>
    have : get A n S o name = (.ok v, S) := by unfold get lookup; rw [hd]
    rw [this]
    refine ⟨.refl hS, fun b c hA => ?_⟩
    obtain ⟨w, _, _, rfl, -⟩ := hS.inv.entry _ _ _ _ _ hA hd
    exact ⟨w, rfl, hd⟩
  | none =>
    cases hA : A o name with
    | none =>
      have : get A n S o name = (.error .attributeError, S) := by unfold get lookup; rw [hd, hA]
      rw [this]
      exact ⟨.refl hS, fun b c h => by cases h⟩
    | some a =>
      cases a with
      | plain v =>
        have : get A n S o name = (.ok v, S) := by unfold get lookup; rw [hd, hA]
        rw [this]
        exact ⟨.refl hS, fun b c h => by cases h⟩
      | desc b c =>
        obtain ⟨w, S', h1, h2, h3⟩ := bind_step H n S o b c name hS hA hd hr
        have : get A n S o name = (.ok (.cls w), S') := by unfold get lookup; rw [hd, hA]; dsimp only; rw [h1]
        rw [this]
        exact ⟨h2, fun b c h => ⟨w, rfl, h3⟩⟩

end

end Big.BoundInner
