import Verif.Delims.CacheModel
import Verif.Delims.Order
/-! # C80: calls of split_delimiters do not influence one another -/
namespace Big.SD
open Big.MS (CacheOK)

/-- The mapping passed has the same items as the exported mapping of kind `k'`. -/
def IsExported (σ : World) (k : Kind) (ds : Delims Char) (k' : Kind) : Prop :=
  (k = k' ∧ ds.Perm (σ.dflt k')) ∨ (ds = [] ∧ σ.dflt k' = [])

/-- The exported mapping of kind `k` was not changed, or has been changed back. -/
def Unchanged (σ : World) (k : Kind) : Prop := (σ.dflt k).Perm defaultDelims

/-- What an exception of splitDelimiters is. -/
def lift : Except Err (List (Tuple Char) × Option Err) → Except CallErr (List (Tuple Char) × Option Err)
  | .error e => .error (.of e)
  | .ok r => .ok r

/-! ### Lemmas -/

theorem perm_of_sub {β : Type} {a b : List β} (hn : a.Nodup) (hl : a.length = b.length)
    (hs : ∀ x ∈ a, x ∈ b) : a.Perm b := by
  classical
  induction a generalizing b with
  | nil => cases b with
    | nil => exact .nil
    | cons => simp at hl
  | cons x a ih =>
    have hx : x ∈ b := hs x (by simp)
    rw [List.nodup_cons] at hn
    have := List.perm_cons_erase hx
    refine (List.Perm.cons x ?_).trans this.symm
    refine ih hn.2 ?_ ?_
    · have := this.length_eq; simp only [List.length_cons] at this hl; omega
    · intro y hy
      have hne : y ≠ x := fun e => hn.1 (e ▸ hy)
      exact (List.mem_erase_of_ne hne).2 (hs y (by simp [hy]))

theorem nodup_of_openers {ds : Delims Char} (h : (openers ds).Nodup) : ds.Nodup := by
  unfold openers List.Nodup at h
  rw [List.pairwise_map] at h
  exact h.imp fun hab e => hab (by rw [e])

theorem itemEq_iff {x y : List Char × Delim Char} : itemEq x y = true ↔ x = y := by
  obtain ⟨k, c, e, m, q⟩ := x
  obtain ⟨k', c', e', m', q'⟩ := y
  simp only [itemEq, Delim.pyEq, Bool.and_eq_true, decide_eq_true_eq, Prod.mk.injEq, Delim.mk.injEq]
  constructor
  · rintro ⟨h1, ⟨⟨h2, h3⟩, h4⟩, h5⟩; exact ⟨h1, h2, h3, h5, h4⟩
  · rintro ⟨h1, h2, h3, h5, h4⟩; exact ⟨h1, ⟨⟨h2, h3⟩, h4⟩, h5⟩

theorem itemsEq_iff : ∀ {a b : Delims Char}, itemsEq a b = true ↔ a = b
  | [], [] => by simp [itemsEq]
  | [], _ :: _ => by simp [itemsEq]
  | _ :: _, [] => by simp [itemsEq]
  | x :: a, y :: b => by simp [itemsEq, itemEq_iff, itemsEq_iff (a := a)]

theorem dictEq_iff {σ : World} {k k' : Kind} {ds : Delims Char} (hn : (openers ds).Nodup) :
    dictEq k ds k' (σ.dflt k') = true ↔ IsExported σ k ds k' := by
  unfold dictEq IsExported
  simp only [Bool.or_eq_true, Bool.and_eq_true, List.isEmpty_iff, decide_eq_true_eq, List.all_eq_true,
    List.any_eq_true, itemEq_iff]
  constructor
  · rintro (h | ⟨⟨h1, h2⟩, h3⟩)
    · exact .inr h
    · exact .inl ⟨h1, perm_of_sub (nodup_of_openers hn) h2 fun x hx => by
        obtain ⟨y, hy, rfl⟩ := h3 x hx; exact hy⟩
  · rintro (⟨h1, h2⟩ | h)
    · exact .inr ⟨⟨h1, h2.length_eq⟩, fun x hx => ⟨x, h2.mem_iff.1 hx, rfl⟩⟩
    · exact .inl h

/-- Remembered tables are those of the delimiters they are asked for by. -/
theorem world_inv {E : Kind → Env Char} {σ : World} (h : WorldReach E σ) :
    ∀ e ∈ σ.cache, e.2 = e.1.1 ∧ ((openers e.1.1).any fun o => (nestedClosers e.1.1).contains o) = false := by
  induction h with
  | start => decide +kernel
  | @step σ σ' _ hs ih =>
    cases hs with
    | change => exact ih
    | forget => exact fun e he => ih e (List.mem_filter.1 he).1
    | call ks s arg state =>
      have key : ∀ k ds, ∀ e ∈ (σ.tables ks k ds).2.cache,
          e.2 = e.1.1 ∧ ((openers e.1.1).any fun o => (nestedClosers e.1.1).contains o) = false := by
        intro k ds
        unfold World.tables
        split
        · exact ih
        · split
          · exact ih
          · split
            · exact ih
            · rename_i h
              intro e he
              rcases List.mem_cons.1 he with rfl | he
              · exact ⟨rfl, by simpa using h⟩
              · exact ih e he
      unfold World.call
      dsimp only
      split
      · exact ih
      · rename_i k ds _
        split
        · exact ih
        · split
          · exact ih
          · have := key k ds
            split
            all_goals (rename_i heq; rw [heq] at this; exact this)

theorem tables_eq {E : Kind → Env Char} {σ : World} (h : WorldReach E σ) (ks k : Kind) (ds : Delims Char) :
    (σ.tables ks k ds).1 = if k ≠ ks then .error .typeError
      else if (openers ds).any (fun o => (nestedClosers ds).contains o) then .error (.of .valueError) else .ok ds := by
  have inv := world_inv h
  unfold World.tables
  split
  · rename_i e he
    have h1 := List.find?_some he
    obtain ⟨e1, e2⟩ := inv e (List.mem_of_find?_eq_some he)
    simp only [Bool.and_eq_true, decide_eq_true_eq, itemsEq_iff] at h1
    rw [h1.1.1] at e1 e2
    rw [if_neg (by simp [h1.2]), if_neg (by simp only [e2]; simp), e1]
  · split
    · rfl
    · split <;> rfl

theorem fromTables_eq {E : Env Char} {s : List Char} {ds : Delims Char} {state : List (List Char)}
    (h1 : ds.isEmpty = false) (h2 : [E.backslash] ∉ openers ds)
    (h3 : ((openers ds).any fun o => (nestedClosers ds).contains o) = false) :
    fromTables E s ds state = lift (splitDelimiters E s ds state) := by
  unfold fromTables splitDelimiters
  rw [if_neg (by simp [h1]), if_neg h2, if_neg (by simp only [h3]; simp)]
  cases enter E ds state none [] <;> rfl

theorem default_eq {E : Env Char} (hb : E.backslash = '\\') {s : List Char} {state : List (List Char)} :
    fromTables E s defaultDelims state = lift (splitDelimiters E s defaultDelims state) :=
  fromTables_eq rfl (by rw [hb]; decide) (by decide +kernel)

/-! ### C80 -/

/-- C80: without the argument `delimiters`, or with None, split_delimiters uses the documented default delimiters,
whatever happened before. -/
theorem C80_default {E : Kind → Env Char} (hb : ∀ k, (E k).backslash = '\\') (σ : World)
    (ks : Kind) (s : List Char) (state : List (List Char)) {arg : DelimArg} (ha : arg = .omitted ∨ arg = .pyNone) :
    (World.call E σ ks s arg state).1 = lift (splitDelimiters (E ks) s defaultDelims state) := by
  rcases ha with rfl | rfl <;> exact default_eq (hb ks)

/-- C80: if the mapping passed is not one of the exported ones, nor equal to one of them, split_delimiters uses it as
it is now, whatever happened before. -/
theorem C80_own_mapping {E : Kind → Env Char} {σ : World} (h : WorldReach E σ)
    (ks : Kind) (s : List Char) (state : List (List Char)) {k : Kind} {ds : Delims Char} (hn : (openers ds).Nodup)
    (hne : ∀ k', ¬ IsExported σ k ds k') :
    (World.call E σ ks s (.mapping k ds) state).1 =
      if ds ≠ [] ∧ k ≠ ks then .error .typeError else lift (splitDelimiters (E ks) s ds state) := by
  have e : (dictEq k ds .str (σ.dflt .str) || dictEq k ds .bytes (σ.dflt .bytes)) = false := by
    rw [Bool.or_eq_false_iff]
    constructor <;> rw [Bool.eq_false_iff] <;> exact fun hd => hne _ ((dictEq_iff hn).1 hd)
  unfold World.call
  simp only [e, Bool.false_eq_true, if_false]
  cases hd : ds.isEmpty with
  | true =>
    have : ds = [] := List.isEmpty_iff.1 hd
    subst this
    simp [splitDelimiters, lift]
  | false =>
    have hne' : ds ≠ [] := by rintro rfl; simp at hd
    simp only [Bool.false_eq_true, if_false]
    by_cases hk : k = ks
    · subst hk
      rw [if_neg (by simp : ¬ (ds ≠ [] ∧ k ≠ k))]
      by_cases h2 : [(E k).backslash] ∈ openers ds
      · rw [if_pos ⟨rfl, h2⟩]
        unfold splitDelimiters
        rw [if_neg (by simp [hd]), if_pos h2]
        rfl
      · rw [if_neg (by simp [h2])]
        have ht := tables_eq h k k ds
        rw [if_neg (by simp)] at ht
        cases h3 : ((openers ds).any fun o => (nestedClosers ds).contains o) with
        | true =>
          rw [h3, if_pos rfl] at ht
          have : splitDelimiters (E k) s ds state = .error .valueError := by
            unfold splitDelimiters
            rw [if_neg (by simp [hd]), if_neg h2, if_pos h3]
          rw [this]
          generalize σ.tables k k ds = x at *
          obtain ⟨x1, x2⟩ := x
          dsimp only at ht
          subst ht
          rfl
        | false =>
          rw [h3, if_neg (by simp)] at ht
          generalize σ.tables k k ds = x at *
          obtain ⟨x1, x2⟩ := x
          dsimp only at ht
          subst ht
          exact fromTables_eq hd h2 h3
    · rw [if_neg (by simp [hk]), if_pos ⟨hne', hk⟩]
      have ht := tables_eq h ks k ds
      rw [if_pos hk] at ht
      generalize σ.tables ks k ds = x at *
      obtain ⟨x1, x2⟩ := x
      dsimp only at ht
      subst ht
      rfl

/-- C104: if it is, or equals, an exported mapping, split_delimiters uses the documented default delimiters, of the type of
`s`, also if the exported mapping was changed. -/
theorem C104_exported {E : Kind → Env Char} (hb : ∀ k, (E k).backslash = '\\') {σ : World}
    (ks : Kind) (s : List Char) (state : List (List Char)) {k k' : Kind} {ds : Delims Char} (hn : (openers ds).Nodup)
    (he : IsExported σ k ds k') :
    (World.call E σ ks s (.mapping k ds) state).1 = lift (splitDelimiters (E ks) s defaultDelims state) := by
  have e : (dictEq k ds .str (σ.dflt .str) || dictEq k ds .bytes (σ.dflt .bytes)) = true := by
    rw [Bool.or_eq_true]
    have := (dictEq_iff hn).2 he
    cases k' <;> simp [this]
  unfold World.call
  simp only [e, if_true]
  exact default_eq (hb ks)

/-- C104, for a program that has not changed the exported mappings, or does not pass what equals a changed one: the result of
a call with a mapping of the type of `s` is a function of `s`, the items of the mapping, in any order, and the state: no
earlier call matters. -/
theorem C104_call {E : Kind → Env Char} (hb : ∀ k, (E k).backslash = '\\') (hc : ∀ k, CacheOK (E k).cache)
    {σ : World} (h : WorldReach E σ) (ks : Kind) (s : List Char) (state : List (List Char)) {ds ds' : Delims Char}
    (hn : (openers ds).Nodup) (hp : ds.Perm ds') (hun : ∀ k', IsExported σ ks ds k' → k' = ks ∧ Unchanged σ k') :
    (World.call E σ ks s (.mapping ks ds) state).1 = lift (splitDelimiters (E ks) s ds' state) := by
  rw [← C80_order (hc ks) hp hn]
  by_cases he : ∃ k', IsExported σ ks ds k'
  · obtain ⟨k', he⟩ := he
    obtain ⟨rfl, hu⟩ := hun k' he
    rw [C104_exported hb k' s state hn he]
    rcases he with ⟨_, he⟩ | ⟨_, he⟩
    · rw [C80_order (hc k') (he.trans hu) hn]
    · rw [Unchanged, he] at hu
      exact absurd hu.length_eq (by decide)
  · rw [C80_own_mapping h ks s state hn (fun k' hk => he ⟨k', hk⟩), if_neg (by simp)]

/-- The property fails if the program has changed an exported mapping: here it has added `<` `>`. Passing the changed
mapping, or a new one with the same items, splits at the old delimiters only; a mapping with one delimiter more works. -/
theorem C104_changed_default :
    let E := fun _ => strEnv
    let ds := defaultDelims ++ [(['<'], plainDelim ">")]
    let σ : World := { World.start with dflt := fun k' => if k' = .str then ds else World.start.dflt k' }
    WorldReach E σ ∧
    (World.call E σ .str "a<b".toList (.mapping .str ds) []).1 = .ok ([("a<b".toList, [], [])], none) ∧
    splitDelimiters strEnv "a<b".toList ds [] = .ok ([("a".toList, "<".toList, []), ("b".toList, [], [])], none) ∧
    (World.call E σ .str "a<b".toList (.mapping .str (ds ++ [(['«'], plainDelim "»")])) []).1 =
      .ok ([("a".toList, "<".toList, []), ("b".toList, [], [])], none) := by
  refine ⟨.step .start (.change _ _ _ (by decide +kernel)), ?_, ?_, ?_⟩ <;> decide +kernel

/-- The hypotheses of C104_call: after some calls, a mapping of our own, and the default one. -/
example : let E := fun _ => strEnv
    let σ := (World.call E World.start .str "a".toList (.mapping .str [(['<'], plainDelim ">")]) []).2
    WorldReach E σ ∧ σ.cache.length = 3 ∧ (∀ k', ¬ IsExported σ .str [(['<'], plainDelim ">")] k') ∧
    (∀ k', IsExported σ .str defaultDelims k' → k' = .str ∧ Unchanged σ k') := by
  refine ⟨.step .start (.call _ _ _ _ _), by decide +kernel, ?_, ?_⟩
  · rintro k' (⟨_, h⟩ | ⟨h, _⟩)
    · have := h.length_eq
      revert this
      cases k' <;> decide +kernel
    · simp at h
  · rintro k' (⟨rfl, h⟩ | ⟨h, _⟩)
    · exact ⟨rfl, List.Perm.refl _⟩
    · exact absurd h (by decide)

end Big.SD
