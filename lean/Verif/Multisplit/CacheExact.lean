import Verif.Multisplit.Cache
/-!
# C103, exactly: which separators a call of multisplit uses, if the objects may change at any time
-/
namespace Big.MS
open Big.Rx Spec

variable {α : Type} [DecidableEq α]

/-! ### Specification -/

/-- What may happen before a call: anything that `StoreStep` allows, and any change of any object, hashed or not. The list
has what the objects held before, at each moment. -/
inductive History (nl : α) (rev : List (List α) → Option (List (List α))) (hashable : Nat → Bool) :
    Store α → List (Nat → List (List α)) → Prop
  | start (cont) : History nl rev hashable ⟨cont, hashable, []⟩ []
  | step {σ σ' past} : History nl rev hashable σ past → StoreStep nl rev σ σ' → History nl rev hashable σ' (σ.cont :: past)
  | change {σ past} (cont) : History nl rev hashable σ past → History nl rev hashable { σ with cont := cont } (σ.cont :: past)

/-- multisplit as a function (`multisplit`), but with the separators that the string is stripped of and those it is split
at given apart. -/
def multisplitWith (nl : α) (rev : List (List α) → Option (List (List α))) (s : List α) (stripSeps splitSeps : List (List α))
    (keep : Keep) (maxsplit : Option Int) (reverse separate : Bool) (strip : Strip) : Except Err (List (Item α)) :=
  if stripSeps = [] then .error .valueError
  else if strip = .no then
    .ok (msGen rev s splitSeps keep maxsplit reverse separate strip (decide (keep ≠ .no)))
  else
    match multistrip nl s stripSeps (stripSides strip maxsplit reverse).1 (stripSides strip maxsplit reverse).2 with
    | .error e => .error e
    | .ok s' =>
      .ok (msGen rev s' splitSeps keep (if s' = [] then some 0 else maxsplit) reverse separate
        (if strip = .progressive ∧ maxsplit = some (-1) then .yes else strip)
        (decide (keep ≠ .no) || (decide (strip = .progressive) && decide (maxsplit ≠ some (-1)))))

/-- If both are the same, this is multisplit. -/
theorem multisplitWith_same (nl : α) (rev : List (List α) → Option (List (List α))) (s : List α) (seps : List (List α))
    (keep : Keep) (maxsplit : Option Int) (reverse separate : Bool) (strip : Strip) :
    multisplitWith nl rev s seps seps keep maxsplit reverse separate strip =
      multisplit nl rev s seps keep maxsplit reverse separate strip := rfl

/-! ### The cache holds what was -/

/-- What a pattern was made of is what its key stood for at some time. -/
def Entry.Was (hashable : Nat → Bool) (σ : Store α) (past : List (Nat → List (List α))) (e : Entry α) : Prop :=
  e.pat.separate = e.separate ∧ e.pat.keep = e.keep ∧
  match e.obj with
  | .tuple l => e.pat.seps = l
  | .frozen l => ∀ w, w ∈ e.pat.seps ↔ w ∈ l
  | .ident i => hashable i = true ∧ (e.pat.seps = σ.cont i ∨ ∃ c ∈ past, c i = e.pat.seps)

/-- All cached patterns were right once, and the hashability of objects is as given. -/
def Store.Was (hashable : Nat → Bool) (σ : Store α) (past : List (Nat → List (List α))) : Prop :=
  σ.hashable = hashable ∧ ∀ e ∈ σ.cache, e.Was hashable σ past

theorem memo_was {hashable : Nat → Bool} {σ : Store α} {past : List (Nat → List (List α))} (hσ : σ.Was hashable past)
    (obj : SepObj α) (separate keep : Bool) :
    ((σ.memo obj separate keep).1.separate = separate ∧ (σ.memo obj separate keep).1.keep = keep ∧
      ((∀ w, w ∈ (σ.memo obj separate keep).1.seps ↔ w ∈ σ.contents obj) ∨
        ∃ i, obj = .ref i ∧ hashable i = true ∧ ∃ c ∈ past, c i = (σ.memo obj separate keep).1.seps) ∧
      (∀ l, obj = .tuple l → (σ.memo obj separate keep).1.seps = l)) ∧
    (σ.memo obj separate keep).2.cont = σ.cont ∧ (σ.memo obj separate keep).2.Was hashable past := by
  obtain ⟨hh, hc⟩ := hσ
  unfold Store.memo
  dsimp only
  split
  · rename_i e he
    have hm := List.mem_of_find?_eq_some he
    have hp := List.find?_some he
    simp only [Bool.and_eq_true, beq_iff_eq] at hp
    obtain ⟨⟨hk, rfl⟩, rfl⟩ := hp
    obtain ⟨r1, r2, r3⟩ := hc e hm
    refine ⟨⟨r1, r2, ?_⟩, rfl, hh, hc⟩
    obtain ⟨eo, es, ek, ep⟩ := e
    dsimp only at *
    cases obj with
    | tuple l =>
      cases eo <;> simp [Store.key, KeyObj.eq] at hk
      subst hk
      dsimp only at r3
      exact ⟨.inl (by intro w; rw [r3]; rfl), by intro l' e; cases e; exact r3⟩
    | frozen l =>
      cases eo <;> simp [Store.key, KeyObj.eq] at hk
      dsimp only at r3
      refine ⟨.inl fun w => (r3 w).trans ⟨hk.1 w, hk.2 w⟩, by simp⟩
    | ref i =>
      unfold Store.key at hk
      dsimp only at hk
      split at hk
      · cases eo <;> simp [KeyObj.eq] at hk
        subst hk
        dsimp only at r3
        refine ⟨?_, by simp⟩
        rcases r3.2 with h | h
        · left; intro w; rw [h]; rfl
        · exact .inr ⟨_, rfl, r3.1, h⟩
      · cases eo <;> simp [KeyObj.eq] at hk
        subst hk
        dsimp only at r3
        exact ⟨.inl (by intro w; rw [r3]; rfl), by simp⟩
  · refine ⟨⟨rfl, rfl, .inl fun w => Iff.rfl, by rintro l rfl; rfl⟩, rfl, hh, ?_⟩
    intro e he
    rcases List.mem_cons.1 he with rfl | he
    · refine ⟨rfl, rfl, ?_⟩
      cases obj with
      | tuple l => rfl
      | frozen l => intro w; rfl
      | ref i =>
        unfold Store.key
        by_cases h1 : σ.hashable i = true
        · dsimp only
          rw [if_pos h1]
          exact ⟨hh ▸ h1, .inl rfl⟩
        · dsimp only
          rw [if_neg h1]
          rfl
    · exact hc e he

theorem strip_was {hashable : Nat → Bool} {σ : Store α} {past : List (Nat → List (List α))} (hσ : σ.Was hashable past)
    (nl : α) (s : List α) (obj : SepObj α) (left right : Bool) :
    (σ.strip nl s obj left right).1 = multistrip nl s (σ.contents obj) left right ∧
    (σ.strip nl s obj left right).2.cont = σ.cont ∧ (σ.strip nl s obj left right).2.Was hashable past := by
  unfold Store.strip multistrip
  dsimp only
  split
  · exact ⟨rfl, rfl, hσ⟩
  split
  · exact ⟨rfl, rfl, hσ⟩
  split
  · exact ⟨rfl, rfl, hσ⟩
  obtain ⟨⟨h1, _, _, h4⟩, h5, h6⟩ := memo_was hσ (.tuple (σ.contents obj)) false false
  refine ⟨?_, h5, h6⟩
  unfold stripCore
  rw [h1, h4 _ rfl]

theorem call_was {hashable : Nat → Bool} {σ : Store α} {past : List (Nat → List (List α))} (hσ : σ.Was hashable past)
    (nl : α) (s : List α) (obj : SepObj α) (keep : Keep) (maxsplit : Option Int) (reverse separate : Bool) (strip : Strip) :
    (σ.call nl s obj keep maxsplit reverse separate strip).2.cont = σ.cont ∧
    (σ.call nl s obj keep maxsplit reverse separate strip).2.Was hashable past := by
  unfold Store.call
  split
  · exact ⟨rfl, hσ⟩
  split
  · exact ⟨rfl, hσ⟩
  have h := strip_was hσ nl s obj (stripSides strip maxsplit reverse).1 (stripSides strip maxsplit reverse).2
  split
  · rename_i e; rw [e] at h; exact h.2
  · rename_i e; rw [e] at h; exact h.2

theorem run_was {hashable : Nat → Bool} {σ : Store α} {past : List (Nat → List (List α))} (hσ : σ.Was hashable past)
    (rev : List (List α) → Option (List (List α))) (g : Gen α) :
    ((σ.run rev g).2.cont = σ.cont ∧ (σ.run rev g).2.Was hashable past) ∧
    ∃ seps, (seps = σ.contents g.obj ∨
        ∃ i, g.obj = .ref i ∧ hashable i = true ∧ g.reverse = false ∧ ∃ c ∈ past, c i = seps) ∧
      (σ.run rev g).1 = msGen rev g.s seps g.keep g.maxsplit g.reverse g.separate g.strip g.reKeep := by
  refine ⟨?_, ?_⟩
  · unfold Store.run
    split
    · exact ⟨rfl, hσ⟩
    · exact (memo_was hσ _ _ _).2
  · unfold Store.run msGen
    by_cases h0 : g.maxsplit = some 0
    · exact ⟨_, .inl rfl, by rw [if_pos h0, if_pos h0]⟩
    · obtain ⟨⟨h1, h2, h3, h4⟩, -⟩ := memo_was hσ
        (if g.reverse then .tuple (revSeps rev (σ.contents g.obj)) else g.obj) g.separate g.reKeep
      rw [if_neg h0]
      dsimp only
      rw [h1, h2]
      cases hr : g.reverse with
      | true =>
        refine ⟨_, .inl rfl, ?_⟩
        rw [hr, if_pos rfl] at h4
        rw [if_pos rfl, if_neg h0, if_pos rfl, h4 _ rfl]
        rfl
      | false =>
        rw [hr] at h3
        rcases h3 with h3 | ⟨i, e1, e2, c, hc, e3⟩
        · refine ⟨_, .inl rfl, ?_⟩
          have key := match0_set h3 g.separate
          rw [if_neg h0]
          simp only [Bool.false_eq_true, if_false] at key ⊢
          rw [key]
        · refine ⟨_, .inr ⟨i, by simpa using e1, e2, rfl, c, hc, rfl⟩, ?_⟩
          rw [if_neg h0, e3]
          rfl

theorem history_was {nl : α} {rev : List (List α) → Option (List (List α))} {hashable : Nat → Bool} {σ : Store α}
    {past : List (Nat → List (List α))} (h : History nl rev hashable σ past) : σ.Was hashable past := by
  -- the past grows, and has what an object held last
  have grow : ∀ {σ : Store α} {past : List (Nat → List (List α))} (σ' : Store α), σ.Was hashable past →
      σ'.hashable = hashable → (∀ e ∈ σ'.cache, e.Was hashable σ past) → σ'.Was hashable (σ.cont :: past) := by
    intro σ past σ' h1 h2 h3
    refine ⟨h2, fun e he => ?_⟩
    obtain ⟨r1, r2, r3⟩ := h3 e he
    refine ⟨r1, r2, ?_⟩
    split at r3
    · exact r3
    · exact r3
    · rename_i i _
      refine ⟨r3.1, .inr ?_⟩
      rcases r3.2 with h | ⟨c, hc, h⟩
      · exact ⟨σ.cont, by simp, h.symm⟩
      · exact ⟨c, by simp [hc], h⟩
  have sameCont : ∀ {σ σ' : Store α} {past : List (Nat → List (List α))}, σ'.cont = σ.cont → σ'.Was hashable past →
      ∀ e ∈ σ'.cache, e.Was hashable σ past := by
    intro σ σ' past h1 h2 e he
    have := h2.2 e he
    unfold Entry.Was at this ⊢
    rwa [h1] at this
  induction h with
  | start cont => exact ⟨rfl, by intro e he; cases he⟩
  | change cont _ ih => exact grow _ ih ih.1 ih.2
  | step _ hs ih =>
    cases hs with
    | call s obj keep maxsplit reverse separate strip =>
      obtain ⟨h1, h2⟩ := call_was ih nl s obj keep maxsplit reverse separate strip
      exact grow _ ih h2.1 (sameCont h1 h2)
    | strip s obj left right =>
      obtain ⟨_, h1, h2⟩ := strip_was ih nl s obj left right
      exact grow _ ih h2.1 (sameCont h1 h2)
    | run g =>
      obtain ⟨⟨h1, h2⟩, _⟩ := run_was ih rev g
      exact grow _ ih h2.1 (sameCont h1 h2)
    | change i l hi => exact grow _ ih ih.1 ih.2
    | forget p => exact grow _ ih ih.1 (fun e he => ih.2 e (List.mem_filter.1 he).1)

/-! ### C103 -/

/-- C103, exactly: after any calls and any changes of the objects, a call of multisplit strips the string of the
separators the object holds at the time of the call, and splits it at those it holds when the generator is started (not
before τ; whatever happens in between). Only for an object that can be hashed, and only if reverse is not true, it may
be those that the object held at some earlier time. -/
theorem C103_exact {nl : α} {rev : List (List α) → Option (List (List α))} {hashable : Nat → Bool} {σ τ : Store α}
    {past past' : List (Nat → List (List α))} (hσ : History nl rev hashable σ past) (hτ : History nl rev hashable τ past')
    (s : List α) (obj : SepObj α) (keep : Keep) (maxsplit : Option Int) (reverse separate : Bool) (strip : Strip) :
    ∃ seps, (seps = τ.contents obj ∨
        ∃ i, obj = .ref i ∧ hashable i = true ∧ reverse = false ∧ ∃ c ∈ past', c i = seps) ∧
      (match (σ.call nl s obj keep maxsplit reverse separate strip).1 with
        | .error e => .error e
        | .ok g => .ok (τ.run rev g).1) =
        multisplitWith nl rev s (σ.contents obj) seps keep maxsplit reverse separate strip := by
  have h1 := history_was hσ
  have h2 := history_was hτ
  unfold Store.call multisplitWith
  by_cases hc : σ.contents obj = []
  · exact ⟨_, .inl rfl, by rw [if_pos hc, if_pos hc]⟩
  rw [if_neg hc]
  by_cases hs : strip = .no
  · rw [if_pos hs]
    dsimp only
    obtain ⟨_, seps, k1, k2⟩ := run_was h2 rev ⟨s, obj, keep, maxsplit, reverse, separate, strip, decide (keep ≠ .no)⟩
    refine ⟨seps, k1, ?_⟩
    rw [if_neg hc, if_pos hs, k2]
  · rw [if_neg hs]
    obtain ⟨h3, -⟩ := strip_was h1 nl s obj (stripSides strip maxsplit reverse).1 (stripSides strip maxsplit reverse).2
    rw [← h3]
    generalize σ.strip nl s obj (stripSides strip maxsplit reverse).1 (stripSides strip maxsplit reverse).2 = r
    obtain ⟨r1, r2⟩ := r
    cases r1 with
    | error e => exact ⟨_, .inl rfl, by rw [if_neg hc, if_neg hs]⟩
    | ok s' =>
      dsimp only
      obtain ⟨_, seps, k1, k2⟩ := run_was h2 rev ⟨s', obj, keep, if s' = [] then some 0 else maxsplit, reverse, separate,
        if strip = .progressive ∧ maxsplit = some (-1) then .yes else strip,
        decide (keep ≠ .no) || (decide (strip = .progressive) && decide (maxsplit ≠ some (-1)))⟩
      refine ⟨seps, k1, ?_⟩
      rw [if_neg hc, if_neg hs, k2]

/-- A history with a changed object that can be hashed: the one of `C103_stale_pattern`. -/
example : ∃ (τ : Store Char) (past : _), History '\n' strCache (fun _ => true) τ past ∧ τ.contents (.ref 0) = [[';']] ∧
    (∃ c ∈ past, c 0 = [[',']]) ∧ (τ.run strCache exampleGen).1 = [.str ['a'], .str ['b', ';', 'c']] := by
  refine ⟨_, _, .change (fun _ => [[';']]) (.step (.start (fun _ => [[',']])) (.run _ exampleGen)), rfl, ⟨fun _ => [[',']], List.mem_cons_of_mem _ (List.mem_cons_self ..), rfl⟩, ?_⟩
  decide +kernel

end Big.MS
