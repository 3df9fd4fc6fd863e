import Verif.BoundInner.Hier
/-! # C60: bound inner classes -/
namespace Big.BoundInner

/-- Before any access: each decorated class is an attribute under its own name, and nothing is cached. -/
structure Start (A : Attrs) (S : State) : Prop where
  own : OwnName A S
  empty : ∀ o name, Desc A o name → S.dict o name = none

theorem Start.inv {A : Attrs} {S : State} (h : Start A S) : Inv A S.heap.length S := by
  refine ⟨Nat.le_refl _, h.own, ?_, ?_⟩
  · intro o name b c v hA hd
    rw [h.empty o name ⟨b, c, hA⟩] at hd; cases hd
  · intro o name _ _ w hD _ hd _
    rw [h.empty o name hD] at hd; cases hd

instance {α} [DecidableEq α] : DecidableEq (Except Err α)
  | .ok a, .ok b => if h : a = b then .isTrue (h ▸ rfl) else .isFalse fun e => h (Except.ok.inj e)
  | .error a, .error b => if h : a = b then .isTrue (h ▸ rfl) else .isFalse fun e => h (Except.error.inj e)
  | .ok _, .error _ => .isFalse fun e => by cases e
  | .error _, .ok _ => .isFalse fun e => by cases e

theorem get_cached {A : Attrs} {n : Nat} {S : State} {o : Outer} {name : String} {v : Val} (h : S.dict o name = some v) :
    get A n S o name = (.ok v, S) := by
  unfold get lookup
  rw [h]

/-- C60: accessed through the class, a decorated inner class is the class as it was written. -/
theorem C60_class (A : Attrs) (o : Outer) (name : String) (b : Bool) (c : Cls) (h : A o name = some (.desc b c)) :
    getFromClass A o name = .ok (.cls c) := by
  unfold getFromClass; rw [h]

/-- C97: two instances never share a bound class, and neither do two names, if decorated classes are attributes
under their own names (see All.lean for every history). -/
theorem C97_distinct_names (A : Attrs) (n : Nat) (S S1 S2 : State) (o o' : Outer) (name name' : String) (v v' : Val)
    (ops ops' : List Op) (hS : Start A S) (hp : Plain ops) (hp' : Plain ops') (hD : Desc A o name) (hD' : Desc A o' name')
    (h : get A n (run A n S ops) o name = (.ok v, S1)) (h' : get A n (run A n S1 ops') o' name' = (.ok v', S2))
    (hne : o ≠ o' ∨ name ≠ name') : v ≠ v' := by
  rintro rfl
  have i1 : Inv A S.heap.length (run A n S ops) := run_inv hp hS.inv
  have i2 : Inv A S.heap.length S1 := by have := get_inv (n := n) (o := o) (name := name) i1; rwa [h] at this
  have i3 : Inv A S.heap.length (run A n S1 ops') := run_inv hp' i2
  have i4 : Inv A S.heap.length S2 := by have := get_inv (n := n) (o := o') (name := name') i3; rwa [h'] at this
  have h1 : S1.dict o name = some v := by
    rcases get_result i1.ownName h with h1 | ⟨-, -, h1⟩
    · exact h1
    · obtain ⟨b, c, hA⟩ := hD; rw [hA] at h1; cases h1
  have h2 : S2.dict o name = some v := by
    have := (run_dict (n := n) i2.ownName hp' o name).1 v h1
    have ha := get_adds (n := n) (o := o') (name := name') i3.ownName
    rw [h'] at ha
    exact ha.keep this
  have h3 : S2.dict o' name' = some v := by
    rcases get_result i3.ownName h' with h1 | ⟨-, -, h1⟩
    · exact h1
    · obtain ⟨b, c, hA⟩ := hD'; rw [hA] at h1; cases h1
  obtain ⟨b, c, hA⟩ := hD
  obtain ⟨w, _, _, rfl, -⟩ := i4.entry _ _ _ _ _ hA h2
  obtain ⟨e1, e2⟩ := i4.inj _ _ _ _ _ ⟨b, c, hA⟩ hD' h2 h3
  rcases hne with h | h
  · exact h e1
  · exact h e2

/-- C97: an instance of `o.Inner`, made at any later time while `o` is alive, is initialized by the `__init__` of
Inner (its own or the one it inherits) with `o` before the arguments given, if decorated classes are attributes under their own names and accessed as
attributes (see All.lean for every history). -/
theorem C97_receives_own_name (A : Attrs) (n : Nat) (S S1 : State) (o : Outer) (name : String) (c : Cls) (v : Val)
    (ops : List Op) (hS : Start A S) (hp : Plain ops) (hA : A o name = some (.desc true c))
    (h : get A n (run A n S ops) o name = (.ok v, S1)) :
    ∃ w, v = .cls w ∧ ∀ (later : List Op) (args : List Arg) (k : Cls), let S2 := run A n S1 later
      (S2.info c).mro.find? (fun j => (S2.info j).init ≠ .inherit) = some k → (S2.info k).init = .own →
      (S2.alive o = true → construct S2 w args = some (k, .outer o :: args)) ∧
      (S2.alive o = false → construct S2 w args = some (k, .nothing :: args)) := by
  have i1 : Inv A S.heap.length (run A n S ops) := run_inv hp hS.inv
  have i2 : Inv A S.heap.length S1 := by have := get_inv (n := n) (o := o) (name := name) i1; rwa [h] at this
  have h1 : S1.dict o name = some v := by
    rcases get_result i1.ownName h with h1 | ⟨-, -, h1⟩
    · exact h1
    · rw [hA] at h1; cases h1
  obtain ⟨w, rest, r, rfl, hw1, hw2, hw3⟩ := i2.entry _ _ _ _ _ hA h1
  refine ⟨w, rfl, ?_⟩
  intro later args k S2 hk hown
  have hi : S2.info w = S1.info w := info_append (run_heap A n later S1) hw2
  have hlen : 0 < S2.heap.length := by
    obtain ⟨t, ht⟩ := run_heap A n later S1
    show 0 < (run A n S1 later).heap.length
    rw [ht]; simp; omega
  have key : construct S2 w args = some (k, deref S2 o :: args) := by
    unfold construct callInit
    rw [hi, hw3]
    dsimp only
    have hf : (w :: r).find? (fun j => decide ((S2.info j).init ≠ .inherit)) = some w := by
      rw [List.find?_cons, hi, hw3]; rfl
    rw [hf]
    dsimp only
    rw [hi, hw3]
    dsimp only [if_true]
    cases hl : S2.heap.length with
    | zero => omega
    | succ m =>
      simp only [if_true]
      unfold callInit
      rw [hk]
      dsimp only
      rw [hown]
  rw [key]
  unfold deref
  constructor
  · intro ha; rw [if_pos ha]
  · intro ha; rw [ha]; rfl

/-- C60: inheritance between inner classes carries over to the bound classes. Accesses succeed, and the MRO of
`o.Inner` is the MRO of Inner with `o.X` right before each decorated class X in it. -/
theorem C60_mro (A : Attrs) (S : State) (rank : Outer → String → Nat) (H : Hier A S rank) (n : Nat)
    (hn : ∀ o name, rank o name < n) (ops : List Op) (hp : Plain ops) (o : Outer) (name : String) (b : Bool) (c : Cls)
    (hA : A o name = some (.desc b c)) :
    ∃ w S1, get A n (run A n S ops) o name = (.ok (.cls w), S1) ∧
      (S1.info w).mro = expand (boundVersion A S1 o) (S.info c).mro ∧
      ∀ j ∈ (S.info c).mro, Decorated A S o j →
        ∃ w', boundVersion A S1 o j = some w' ∧ get A n S1 o (S.info j).name = (.ok (.cls w'), S1) := by
  have hrun : ∀ (ops : List Op) (T : State), Plain ops → Inv2 A S T → Inv2 A S (run A n T ops) := by
    intro ops
    induction ops with
    | nil => intro T _ h; exact h
    | cons op ops ih =>
      intro T hp h
      refine ih _ (fun x hx => hp x (.tail _ hx)) ?_
      have hop := hp op (.head _)
      cases op with
      | get o name => exact (get_step H h (hn o name)).1.1
      | direct o b c => cases hop
      | die o => exact ⟨⟨h.inv.len, h.inv.own, h.inv.entry, h.inv.inj⟩, h.heap, h.other, h.closed, h.mro, h.bases⟩
  have h2 := hrun ops S hp H.inv2
  obtain ⟨hs, hr⟩ := get_step H h2 (hn o name)
  obtain ⟨w, hw1, hw2⟩ := hr b c hA
  obtain ⟨hc, -⟩ := H.own o name b c hA
  refine ⟨w, (get A n (run A n S ops) o name).2, Prod.ext hw1 rfl, hs.1.mro o name b c w hA hw2, ?_⟩
  intro j hj hD
  have hjN : j < S.heap.length := by have := (H.mro_le hc).1 j hj; omega
  obtain ⟨w', hw'⟩ := hs.1.closed o name b c w hA hw2 j hj hD
  refine ⟨w', boundVersion_some.2 ⟨(decorated_iff hs.1 hjN).2 hD, by rw [hs.1.info hjN]; exact hw'⟩, ?_⟩
  exact get_cached hw'

theorem superOf_expand {p : Cls → Option Cls} {N : Nat} (hF : Fresh p N) {pre post : List Cls} {j x x' : Cls}
    (hlt : ∀ y ∈ pre ++ j :: x :: post, y < N) (hnd : (pre ++ j :: x :: post).Nodup) (hx : p x = some x') :
    ((expand p (pre ++ j :: x :: post)).dropWhile (· ≠ j)).tail = x' :: x :: expand p post := by
  induction pre with
  | nil =>
    rw [List.nil_append, expand_cons, expand_cons]
    unfold exp1
    rw [hx]
    cases hj : p j with
    | none => simp
    | some j' =>
      have := hF.new (hlt j (by simp)) hj
      have hjN := hlt j (by simp)
      have hne : j' ≠ j := by omega
      simp [List.dropWhile_cons, hne]
  | cons y pre ih =>
    have hy : y ≠ j := by
      intro h; subst h
      simp at hnd
    rw [List.cons_append, expand_cons]
    have ih' := ih (fun z hz => hlt z (.tail _ hz)) (List.nodup_cons.1 hnd).2
    unfold exp1
    cases hyp : p y with
    | none =>
      rw [List.cons_append, List.dropWhile_cons, if_pos (by simpa using hy)]
      exact ih'
    | some y' =>
      have := hF.new (hlt y (by simp)) hyp
      have hjN := hlt j (by simp)
      have hne : y' ≠ j := by omega
      rw [List.cons_append, List.dropWhile_cons, if_pos (by simpa using hne), List.cons_append, List.dropWhile_cons,
        if_pos (by simpa using hy)]
      exact ih'

/-- C60: inside a method of a class `j` of the MRO of Inner, `super()` on an instance of `o.Inner` finds `o.X` if X is
the decorated class that follows `j`; so `super().__init__(...)` passes `o` to X as well (`C97_receives_own_name`). -/
theorem C60_super (A : Attrs) (S : State) (rank : Outer → String → Nat) (H : Hier A S rank) (n : Nat)
    (hn : ∀ o name, rank o name < n) (ops : List Op) (hp : Plain ops) (o : Outer) (name : String) (b : Bool) (c : Cls)
    (hA : A o name = some (.desc b c)) (pre post : List Cls) (j x : Cls) (hm : (S.info c).mro = pre ++ j :: x :: post)
    (hx : Decorated A S o x) :
    ∃ w S1 x', get A n (run A n S ops) o name = (.ok (.cls w), S1) ∧ get A n S1 o (S.info x).name = (.ok (.cls x'), S1) ∧
      (superOf S1 w j).head? = some x' := by
  obtain ⟨w, S1, h1, h2, h3⟩ := C60_mro A S rank H n hn ops hp o name b c hA
  obtain ⟨x', h4, h5⟩ := h3 x (by rw [hm]; simp) hx
  obtain ⟨hc, -⟩ := H.own o name b c hA
  have hle := H.mro_le hc
  refine ⟨w, S1, x', h1, h5, ?_⟩
  have hinv : Inv A S.heap.length S1 := by
    have i0 : Inv A S.heap.length S := H.inv2.inv
    have := get_inv (n := n) (o := o) (name := name) (run_inv (n := n) hp i0)
    rwa [h1] at this
  have hF : Fresh (boundVersion A S1 o) S.heap.length := by
    constructor
    · intro k k' hk hb
      obtain ⟨⟨b, hA⟩, hd⟩ := boundVersion_some.1 hb
      obtain ⟨w, _, _, h1, h2, -⟩ := hinv.entry _ _ _ _ _ hA hd
      cases h1
      exact h2
    · intro j k w hj hk h1 h2
      obtain ⟨⟨b, hA⟩, hd⟩ := boundVersion_some.1 h1
      obtain ⟨⟨b', hA'⟩, hd'⟩ := boundVersion_some.1 h2
      obtain ⟨-, he⟩ := hinv.inj _ _ _ _ _ ⟨_, _, hA⟩ ⟨_, _, hA'⟩ hd hd'
      rw [he, hA'] at hA
      cases hA
      rfl
  unfold superOf
  rw [h2, hm, superOf_expand hF (N := S.heap.length) ?_ ?_ h4]
  · rfl
  · rw [← hm]; intro y hy; have := hle.1 y hy; omega
  · rw [← hm]; exact hle.2

/-- C60: with UnboundInnerClass, an `__init__` of the class's own gets the arguments as they are. -/
theorem C60_unbound (A : Attrs) (S : State) (rank : Outer → String → Nat) (H : Hier A S rank) (n : Nat)
    (hn : ∀ o name, rank o name < n) (ops : List Op) (hp : Plain ops) (o : Outer) (name : String) (c : Cls)
    (hA : A o name = some (.desc false c)) (hown : (S.info c).init = .own) :
    ∃ w S1, get A n (run A n S ops) o name = (.ok (.cls w), S1) ∧ ∀ args, construct S1 w args = some (c, args) := by
  obtain ⟨w, S1, h1, h2, h3⟩ := C60_mro A S rank H n hn ops hp o name false c hA
  refine ⟨w, S1, h1, fun args => ?_⟩
  obtain ⟨hc, hnm⟩ := H.own o name false c hA
  have i0 : Inv A S.heap.length S := H.inv2.inv
  have i1 : Inv A S.heap.length (run A n S ops) := run_inv hp i0
  have hinv : Inv A S.heap.length S1 := by
    have := get_inv (n := n) (o := o) (name := name) i1
    rwa [h1] at this
  have hd : S1.dict o name = some (.cls w) := by
    rcases get_result i1.ownName h1 with h1 | ⟨-, -, h1⟩
    · exact h1
    · rw [hA] at h1; cases h1
  obtain ⟨R, hR, -⟩ := H.mro' hc
  obtain ⟨w', hw', -⟩ := h3 c (by rw [hR]; simp) ⟨false, by rw [hnm]; exact hA⟩
  have hic : S1.info c = S.info c := by
    have hg := get_grow A n (run A n S ops) o name
    rw [h1] at hg
    obtain ⟨t, ht⟩ := run_heap A n ops S
    obtain ⟨t', ht'⟩ := hg.heap
    exact info_append ⟨t ++ t', by rw [ht', ht, List.append_assoc]⟩ hc
  have hww : w' = w := by
    have := (boundVersion_some.1 hw').2
    rw [hic, hnm, hd] at this
    cases this
    rfl
  subst hww
  obtain ⟨w'', rest, r, he, -, hlt, hinfo⟩ := hinv.entry _ _ _ _ _ hA hd
  cases he
  have hm : (S1.info w').mro = w' :: c :: expand (boundVersion A S1 o) R := by
    rw [h2, hR, expand_cons, exp1, hw']; rfl
  have hi : (S1.info w').init = .inherit := by rw [hinfo]; rfl
  unfold construct callInit
  rw [hm]
  have hf : (w' :: c :: expand (boundVersion A S1 o) R).find? (fun j => decide ((S1.info j).init ≠ .inherit)) = some c := by
    rw [List.find?_cons, hi]
    simp only [ne_eq, not_true_eq_false, decide_false]
    rw [List.find?_cons, hic, hown]
    rfl
  rw [hf]
  dsimp only
  rw [hic, hown]

/-! ### Examples -/

/-- Two outer instances of a type with inner classes Base, Left(Base), Right(Base), Both(Left, Right), of which Right
is an UnboundInnerClass. -/
def exHeap : List ClassRec :=
  [⟨"object", [], [0], .inherit⟩, ⟨"Base", [0], [1, 0], .own⟩, ⟨"Left", [1], [2, 1, 0], .own⟩,
   ⟨"Right", [1], [3, 1, 0], .own⟩, ⟨"Both", [2, 3], [4, 2, 3, 1, 0], .own⟩]

/-- An example: the inner classes of an outer class. -/
def exAttrs : Attrs := fun _ name =>
  if name = "Base" then some (.desc true 1) else if name = "Left" then some (.desc true 2)
  else if name = "Right" then some (.desc false 3) else if name = "Both" then some (.desc true 4) else none

/-- An example: no class has been bound yet. -/
def exState : State := ⟨exHeap, fun _ _ => none, fun _ => true⟩

/-- An example: the order in which the inner classes were defined. -/
def exRank : Outer → String → Nat := fun _ name =>
  if name = "Base" then 1 else if name = "Left" then 2 else if name = "Right" then 3 else if name = "Both" then 4 else 0

theorem exAttrs_cases {o : Outer} {name : String} {b : Bool} {c : Cls} (h : exAttrs o name = some (.desc b c)) :
    (name = "Base" ∧ c = 1) ∨ (name = "Left" ∧ c = 2) ∨ (name = "Right" ∧ c = 3) ∨ (name = "Both" ∧ c = 4) := by
  unfold exAttrs at h
  split at h
  · cases h; exact .inl ⟨by assumption, rfl⟩
  split at h
  · cases h; exact .inr (.inl ⟨by assumption, rfl⟩)
  split at h
  · cases h; exact .inr (.inr (.inl ⟨by assumption, rfl⟩))
  split at h
  · cases h; exact .inr (.inr (.inr ⟨by assumption, rfl⟩))
  · cases h

theorem exHier : Hier exAttrs exState exRank := by
  have hdec : ∀ {o c}, Decorated exAttrs exState o c → c = 1 ∨ c = 2 ∨ c = 3 ∨ c = 4 := by
    rintro o c ⟨b, h⟩
    rcases exAttrs_cases h with ⟨-, h⟩ | ⟨-, h⟩ | ⟨-, h⟩ | ⟨-, h⟩ <;> omega
  have hD : ∀ o : Outer, Decorated exAttrs exState o 1 ∧ Decorated exAttrs exState o 2 ∧ Decorated exAttrs exState o 3 ∧
      Decorated exAttrs exState o 4 := fun o => ⟨⟨true, rfl⟩, ⟨true, rfl⟩, ⟨false, rfl⟩, ⟨true, rfl⟩⟩
  have hbases : ∀ {c b : Cls}, c = 1 ∨ c = 2 ∨ c = 3 ∨ c = 4 → b ∈ (exState.info c).bases →
      (c = 1 ∧ b = 0) ∨ (b = 1 ∧ (c = 2 ∨ c = 3)) ∨ (c = 4 ∧ b = 2) ∨ (c = 4 ∧ b = 3) := by
    rintro c b (rfl | rfl | rfl | rfl) hb
    · have : b ∈ [0] := hb
      simp at this; omega
    · have : b ∈ [1] := hb
      simp at this; omega
    · have : b ∈ [1] := hb
      simp at this; omega
    · have : b ∈ [2, 3] := hb
      simp at this; omega
  refine ⟨?_, fun _ _ _ => rfl, ?_, ?_, ?_, ?_, ?_⟩
  · intro o name b c h
    rcases exAttrs_cases h with ⟨rfl, rfl⟩ | ⟨rfl, rfl⟩ | ⟨rfl, rfl⟩ | ⟨rfl, rfl⟩ <;> exact ⟨by decide, rfl⟩
  · intro c hc
    have : c = 0 ∨ c = 1 ∨ c = 2 ∨ c = 3 ∨ c = 4 := by
      have : c < 5 := hc
      omega
    rcases this with rfl | rfl | rfl | rfl | rfl <;> exact ⟨by decide, by decide⟩
  · intro o c b hc hb hj
    obtain ⟨d1, d2, d3, d4⟩ := hD o
    rcases hbases (hdec hc) hb with ⟨-, rfl⟩ | ⟨rfl, -⟩ | ⟨-, rfl⟩ | ⟨-, rfl⟩
    · obtain ⟨j, hj, hd⟩ := hj
      have : j ∈ [0] := hj
      simp at this
      have := hdec hd
      omega
    · exact d1
    · exact d2
    · exact d3
  · rintro o c b v hc hb (h | h)
    · cases h
    · rcases hbases (hdec hc) hb with ⟨-, rfl⟩ | ⟨rfl, -⟩ | ⟨-, rfl⟩ | ⟨-, rfl⟩ <;> cases h
  · rintro o name w (h | h)
    · cases h
    · unfold exAttrs at h
      repeat' split at h
      all_goals cases h
  · intro o c b hc hb _ hd
    rcases hbases (hdec hc) hb with ⟨rfl, rfl⟩ | ⟨rfl, rfl | rfl⟩ | ⟨rfl, rfl⟩ | ⟨rfl, rfl⟩
    · obtain ⟨b, c, h⟩ := hd
      rcases exAttrs_cases h with ⟨h, -⟩ | ⟨h, -⟩ | ⟨h, -⟩ | ⟨h, -⟩ <;> exact absurd h (by decide)
    all_goals show (_ : Nat) < _; simp [exRank, exState, State.info, exHeap]

example : Start exAttrs exState := ⟨fun _ _ _ _ h => exHier.own _ _ _ _ h, exHier.empty⟩

example : ∀ o name, exRank o name < 5 := by
  intro o name; unfold exRank
  repeat' split
  all_goals decide

/-- The MRO of `o.Both`: o.Both, Both, o.Left, Left, o.Right, Right, o.Base, Base, object. -/
example : (get exAttrs 5 exState 0 "Both").1 = .ok (.cls 8) ∧
    ((get exAttrs 5 exState 0 "Both").2.info 8).mro = [8, 4, 6, 2, 7, 3, 5, 1, 0] ∧
    construct (get exAttrs 5 exState 0 "Both").2 8 [.user 7] = some (4, [.outer 0, .user 7]) := by decide +kernel

/-! ### Disagreements -/

/-- `Alias = Inner` in the body of the outer class. -/
def aliasAttrs : Attrs := fun _ name => if name = "Inner" then some (.desc true 1) else if name = "Alias" then some (.desc true 1) else none

/-- An example: one inner class. -/
def aliasState : State := ⟨[⟨"object", [], [0], .inherit⟩, ⟨"Inner", [0], [1, 0], .own⟩], fun _ _ => none, fun _ => true⟩

/-- C97, a disagreement: an inner class that has a second name in the outer class. Each access by that name makes a
new class, and replaces the one that was bound: `o.Inner` before and after reading `o.Alias` are different classes. -/
theorem C97_alias :
    (get aliasAttrs 9 aliasState 0 "Inner").1 = .ok (.cls 2) ∧
    (get aliasAttrs 9 (run aliasAttrs 9 aliasState [.get 0 "Inner", .get 0 "Alias"]) 0 "Inner").1 = .ok (.cls 3) ∧
    (get aliasAttrs 9 (run aliasAttrs 9 aliasState [.get 0 "Inner", .get 0 "Alias"]) 0 "Alias").1 = .ok (.cls 4) := by
  decide +kernel

/-- Outer2 is a subclass of Outer; both have an inner class named Inner, Outer2's (2) derived from Outer's (1). -/
def overAttrs : Attrs := fun _ name => if name = "Inner" then some (.desc true 2) else none

/-- An example: an inner class and one of the same name that inherits from it. -/
def overState : State :=
  ⟨[⟨"object", [], [0], .inherit⟩, ⟨"Inner", [0], [1, 0], .own⟩, ⟨"Inner", [1], [2, 1, 0], .own⟩], fun _ _ => none, fun _ => true⟩

/-- C97, a disagreement: after `super().Inner` in a method of Outer2, `self.Inner` is Outer's inner class, not
Outer2's. -/
theorem C97_super_access :
    (get overAttrs 9 overState 0 "Inner").1 = .ok (.cls 3) ∧ ((get overAttrs 9 overState 0 "Inner").2.info 3).bases = [2] ∧
    (get overAttrs 9 (run overAttrs 9 overState [.get 0 "Inner", .direct 0 true 1]) 0 "Inner").1 = .ok (.cls 4) ∧
    ((run overAttrs 9 overState [.get 0 "Inner", .direct 0 true 1]).info 4).bases = [1] := by
  decide +kernel

/-- C97, a disagreement: the bound class does not keep its outer instance alive; an instance made after `o` is gone
receives None. -/
theorem C97_dead :
    construct (run aliasAttrs 9 aliasState [.get 0 "Inner"]) 2 [] = some (1, [.outer 0]) ∧
    construct (run aliasAttrs 9 aliasState [.get 0 "Inner", .die 0]) 2 [] = some (1, [.nothing]) := by
  decide +kernel

/-- Other has inner classes Q (1) and P (2); Outer has bound inner classes P(Other.Q) (3) and Q(Other.P) (4). -/
def cycleState : State :=
  ⟨[⟨"object", [], [0], .inherit⟩, ⟨"Q", [0], [1, 0], .own⟩, ⟨"P", [0], [2, 0], .own⟩, ⟨"P", [1], [3, 1, 0], .own⟩,
    ⟨"Q", [2], [4, 2, 0], .own⟩], fun _ _ => none, fun _ => true⟩

/-- An example: names that lead to one another's classes. -/
def cycleAttrs : Attrs := fun _ name => if name = "P" then some (.desc true 3) else if name = "Q" then some (.desc true 4) else none

/-- C97, a disagreement: the guard against endless recursion compares a base's name with the class's own name only.
Two inner classes, each with a base that has the name of the other one, cannot be accessed at all: RecursionError,
whatever the recursion limit. -/
theorem C97_cycle (n : Nat) (o : Outer) :
    (get cycleAttrs n cycleState o "P").1 = .error .recursionError ∧ (get cycleAttrs n cycleState o "Q").1 = .error .recursionError := by
  have hb : ∀ n, bind cycleAttrs n cycleState o true 3 = (.error .recursionError, cycleState) ∧
      bind cycleAttrs n cycleState o true 4 = (.error .recursionError, cycleState) := by
    intro n
    induction n with
    | zero => exact ⟨rfl, rfl⟩
    | succ n ih =>
      have l3 : lookup cycleAttrs (bind cycleAttrs n) cycleState o "P" = (.error .recursionError, cycleState) := by
        show (match bind cycleAttrs n cycleState o true 3 with | (.error e, S') => _ | (.ok w, S') => _) = _
        rw [ih.1]
      have l4 : lookup cycleAttrs (bind cycleAttrs n) cycleState o "Q" = (.error .recursionError, cycleState) := by
        show (match bind cycleAttrs n cycleState o true 4 with | (.error e, S') => _ | (.ok w, S') => _) = _
        rw [ih.2]
      constructor
      · have h1 : (cycleState.info 3).name = "P" := rfl
        have h2 : (cycleState.info 3).bases = [1] := rfl
        have h3 : (cycleState.info 1).name = "Q" := rfl
        unfold bind loop step
        rw [h1, h2]
        dsimp only
        rw [h3, if_pos (by decide), l4]
      · have h1 : (cycleState.info 4).name = "Q" := rfl
        have h2 : (cycleState.info 4).bases = [2] := rfl
        have h3 : (cycleState.info 2).name = "P" := rfl
        unfold bind loop step
        rw [h1, h2]
        dsimp only
        rw [h3, if_pos (by decide), l3]
  constructor
  · unfold get
    have : lookup cycleAttrs (bind cycleAttrs n) cycleState o "P" = (.error .recursionError, cycleState) := by
      show (match bind cycleAttrs n cycleState o true 3 with | (.error e, S') => _ | (.ok w, S') => _) = _
      rw [(hb n).1]
    rw [this]
  · unfold get
    have : lookup cycleAttrs (bind cycleAttrs n) cycleState o "Q" = (.error .recursionError, cycleState) := by
      show (match bind cycleAttrs n cycleState o true 4 with | (.error e, S') => _ | (.ok w, S') => _) = _
      rw [(hb n).2]
    rw [this]

end Big.BoundInner
