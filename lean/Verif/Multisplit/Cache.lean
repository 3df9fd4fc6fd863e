import Verif.Multisplit.CacheModel
import Verif.Multisplit.Order
/-!
# C79: calls of multisplit and multistrip do not influence one another
-/
namespace Big.MS
open Big.Rx Spec

variable {α : Type} [DecidableEq α]

/-! ### the cache is right -/

/-- What a pattern was made of is what its key stands for. -/
def Entry.Right (σ : Store α) (e : Entry α) : Prop :=
  e.pat.separate = e.separate ∧ e.pat.keep = e.keep ∧
  match e.obj with
  | .tuple l => e.pat.seps = l
  | .frozen l => ∀ w, w ∈ e.pat.seps ↔ w ∈ l
  | .ident i => σ.hashable i = true ∧ e.pat.seps = σ.cont i

/-- All cached patterns are right. -/
def Store.Right (σ : Store α) : Prop := ∀ e ∈ σ.cache, e.Right σ

theorem memo_spec {σ : Store α} (hσ : σ.Right) (obj : SepObj α) (separate keep : Bool) :
    ((σ.memo obj separate keep).1.separate = separate ∧ (σ.memo obj separate keep).1.keep = keep ∧
      (∀ w, w ∈ (σ.memo obj separate keep).1.seps ↔ w ∈ σ.contents obj) ∧
      (∀ l, obj = .tuple l → (σ.memo obj separate keep).1.seps = l)) ∧
    (σ.memo obj separate keep).2.cont = σ.cont ∧ (σ.memo obj separate keep).2.hashable = σ.hashable ∧
    (σ.memo obj separate keep).2.Right := by
  unfold Store.memo
  dsimp only
  split
  · rename_i e he
    have hm := List.mem_of_find?_eq_some he
    have hp := List.find?_some he
    simp only [Bool.and_eq_true, beq_iff_eq] at hp
    obtain ⟨⟨hk, rfl⟩, rfl⟩ := hp
    obtain ⟨r1, r2, r3⟩ := hσ e hm
    refine ⟨⟨r1, r2, ?_⟩, rfl, rfl, hσ⟩
    obtain ⟨eo, es, ek, ep⟩ := e
    dsimp only at *
    cases obj with
    | tuple l =>
      cases eo <;> simp [Store.key, KeyObj.eq] at hk
      subst hk
      dsimp only at r3
      exact ⟨by intro w; rw [r3]; rfl, by intro l' e; cases e; exact r3⟩
    | frozen l =>
      cases eo <;> simp [Store.key, KeyObj.eq] at hk
      dsimp only at r3
      refine ⟨fun w => (r3 w).trans ⟨hk.1 w, hk.2 w⟩, by simp⟩
    | ref i =>
      unfold Store.key at hk
      dsimp only at hk
      split at hk
      · cases eo <;> simp [KeyObj.eq] at hk
        subst hk
        dsimp only at r3
        exact ⟨by intro w; rw [r3.2]; rfl, by simp⟩
      · cases eo <;> simp [KeyObj.eq] at hk
        subst hk
        dsimp only at r3
        exact ⟨by intro w; rw [r3]; rfl, by simp⟩
  · refine ⟨⟨rfl, rfl, fun w => Iff.rfl, by rintro l rfl; rfl⟩, rfl, rfl, ?_⟩
    intro e he
    rcases List.mem_cons.1 he with rfl | he
    · refine ⟨rfl, rfl, ?_⟩
      cases obj with
      | tuple l => rfl
      | frozen l => intro w; rfl
      | ref i =>
        unfold Store.key
        by_cases hh : σ.hashable i = true
        · simp [hh, Store.contents]
        · simp [hh, Store.contents]
    · exact hσ e he

/-! ### what the calls do -/

theorem strip_spec {σ : Store α} (hσ : σ.Right) (nl : α) (s : List α) (obj : SepObj α) (left right : Bool) :
    (σ.strip nl s obj left right).1 = multistrip nl s (σ.contents obj) left right ∧
    (σ.strip nl s obj left right).2.cont = σ.cont ∧ (σ.strip nl s obj left right).2.hashable = σ.hashable ∧
    (σ.strip nl s obj left right).2.Right := by
  unfold Store.strip multistrip
  dsimp only
  split
  · exact ⟨rfl, rfl, rfl, hσ⟩
  split
  · exact ⟨rfl, rfl, rfl, hσ⟩
  split
  · exact ⟨rfl, rfl, rfl, hσ⟩
  obtain ⟨⟨h1, _, _, h4⟩, h5, h6, h7⟩ := memo_spec hσ (.tuple (σ.contents obj)) false false
  refine ⟨?_, h5, h6, h7⟩
  unfold stripCore
  rw [h1, h4 _ rfl]

theorem call_state {σ : Store α} (hσ : σ.Right) (nl : α) (s : List α) (obj : SepObj α) (keep : Keep)
    (maxsplit : Option Int) (reverse separate : Bool) (strip : Strip) :
    (σ.call nl s obj keep maxsplit reverse separate strip).2.cont = σ.cont ∧
    (σ.call nl s obj keep maxsplit reverse separate strip).2.hashable = σ.hashable ∧
    (σ.call nl s obj keep maxsplit reverse separate strip).2.Right := by
  unfold Store.call
  split
  · exact ⟨rfl, rfl, hσ⟩
  split
  · exact ⟨rfl, rfl, hσ⟩
  have h := strip_spec hσ nl s obj (stripSides strip maxsplit reverse).1 (stripSides strip maxsplit reverse).2
  split
  · rename_i e; rw [e] at h; exact h.2
  · rename_i e; rw [e] at h; exact h.2

theorem run_state {σ : Store α} (hσ : σ.Right) (rev : List (List α) → Option (List (List α))) (g : Gen α) :
    (σ.run rev g).2.cont = σ.cont ∧ (σ.run rev g).2.hashable = σ.hashable ∧ (σ.run rev g).2.Right := by
  unfold Store.run
  split
  · exact ⟨rfl, rfl, hσ⟩
  · exact (memo_spec hσ _ _ _).2

/-- A generator yields what the function of `Multisplit.Model` does. -/
theorem run_spec {σ : Store α} (hσ : σ.Right) (rev : List (List α) → Option (List (List α))) (g : Gen α) :
    (σ.run rev g).1 = msGen rev g.s (σ.contents g.obj) g.keep g.maxsplit g.reverse g.separate g.strip g.reKeep := by
  unfold Store.run msGen
  split
  · rfl
  dsimp only
  obtain ⟨⟨h1, h2, h3, h4⟩, -⟩ := memo_spec hσ
    (if g.reverse then .tuple (revSeps rev (σ.contents g.obj)) else g.obj) g.separate g.reKeep
  have key : match0 (sepRe (σ.memo (if g.reverse then .tuple (revSeps rev (σ.contents g.obj)) else g.obj) g.separate
      g.reKeep).1.seps g.separate) =
      match0 (sepRe (if g.reverse then revSeps rev (σ.contents g.obj) else σ.contents g.obj) g.separate) := by
    cases hr : g.reverse with
    | true =>
      rw [hr, if_pos rfl] at h4
      rw [if_pos rfl, if_pos rfl, h4 _ rfl]
    | false =>
      rw [hr] at h3
      exact match0_set h3 _
  rw [h1, h2, key]

theorem reach_right {nl : α} {rev : List (List α) → Option (List (List α))} {hashable : Nat → Bool} {σ : Store α}
    (h : StoreReach nl rev hashable σ) : σ.hashable = hashable ∧ σ.Right := by
  induction h with
  | start cont => exact ⟨rfl, by intro e he; cases he⟩
  | step _ hs ih =>
    obtain ⟨ih1, ih2⟩ := ih
    cases hs with
    | call s obj keep maxsplit reverse separate strip =>
      obtain ⟨_, h2, h3⟩ := call_state ih2 nl s obj keep maxsplit reverse separate strip
      exact ⟨h2.trans ih1, h3⟩
    | strip s obj left right =>
      obtain ⟨_, _, h2, h3⟩ := strip_spec ih2 nl s obj left right
      exact ⟨h2.trans ih1, h3⟩
    | run g =>
      obtain ⟨_, h2, h3⟩ := run_state ih2 rev g
      exact ⟨h2.trans ih1, h3⟩
    | change i l hi =>
      refine ⟨ih1, fun e he => ?_⟩
      obtain ⟨r1, r2, r3⟩ := ih2 e he
      refine ⟨r1, r2, ?_⟩
      split at r3
      · exact r3
      · exact r3
      · rename_i j eo
        refine ⟨r3.1, ?_⟩
        have : j ≠ i := by
          rintro rfl
          rw [hi] at r3
          exact absurd r3.1 (by decide)
        dsimp only
        rw [if_neg this]
        exact r3.2
    | forget p =>
      exact ⟨ih1, fun e he => ih2 e (List.mem_filter.1 he).1⟩

/-! ### C79 -/

/-- C103: after any calls whatever, a call of multisplit does what it would do on its own with the
separators the object now holds, and the generator it returns may be started in any later state in which the object
holds the same. (Here an object that can be hashed never changes; for those see `C103_exact` and `C103_stale_pattern`.) -/
theorem C103_unchanged {nl : α} {rev : List (List α) → Option (List (List α))} {hashable : Nat → Bool}
    {σ τ : Store α} (hσ : StoreReach nl rev hashable σ) (hτ : StoreReach nl rev hashable τ)
    (s : List α) (obj : SepObj α) (same : τ.contents obj = σ.contents obj)
    (keep : Keep) (maxsplit : Option Int) (reverse separate : Bool) (strip : Strip) :
    (match (σ.call nl s obj keep maxsplit reverse separate strip).1 with
      | .error e => .error e
      | .ok g => .ok (τ.run rev g).1) =
      multisplit nl rev s (σ.contents obj) keep maxsplit reverse separate strip := by
  have h1 := (reach_right hσ).2
  have h2 := (reach_right hτ).2
  unfold Store.call multisplit
  by_cases hc : σ.contents obj = []
  · rw [if_pos hc, if_pos hc]
  rw [if_neg hc, if_neg hc]
  by_cases hs : strip = .no
  · rw [if_pos hs, if_pos hs]
    dsimp only
    rw [run_spec h2 rev _]
    dsimp only
    rw [same]
  · rw [if_neg hs, if_neg hs]
    obtain ⟨h3, -⟩ := strip_spec h1 nl s obj (stripSides strip maxsplit reverse).1 (stripSides strip maxsplit reverse).2
    rw [← h3]
    generalize σ.strip nl s obj (stripSides strip maxsplit reverse).1 (stripSides strip maxsplit reverse).2 = r
    obtain ⟨r1, r2⟩ := r
    cases r1 with
    | error e => rfl
    | ok s' =>
      dsimp only
      rw [run_spec h2 rev _]
      dsimp only
      rw [same]

/-- C79: multistrip does what it would do on its own, after any calls whatever. -/
theorem C79_multistrip {nl : α} {rev : List (List α) → Option (List (List α))} {hashable : Nat → Bool}
    {σ : Store α} (hσ : StoreReach nl rev hashable σ) (s : List α) (obj : SepObj α) (left right : Bool) :
    (σ.strip nl s obj left right).1 = multistrip nl s (σ.contents obj) left right :=
  (strip_spec (reach_right hσ).2 nl s obj left right).1

/-- C79: no call changes an object passed to it. -/
theorem C79_separators_unchanged {nl : α} {rev : List (List α) → Option (List (List α))} {hashable : Nat → Bool}
    {σ : Store α} (hσ : StoreReach nl rev hashable σ) (s : List α) (obj : SepObj α) (keep : Keep)
    (maxsplit : Option Int) (reverse separate : Bool) (strip : Strip) (g : Gen α) (left right : Bool) :
    (σ.call nl s obj keep maxsplit reverse separate strip).2.cont = σ.cont ∧ (σ.run rev g).2.cont = σ.cont ∧
    (σ.strip nl s obj left right).2.cont = σ.cont :=
  have h := (reach_right hσ).2
  ⟨(call_state h nl s obj keep maxsplit reverse separate strip).1, (run_state h rev g).1,
    (strip_spec h nl s obj left right).2.1⟩

/-- A generator for `multisplit("a,b;c", obj)`, with obj the object 0. -/
def exampleGen : Gen Char := ⟨"a,b;c".toList, .ref 0, .no, some (-1), false, false, .no, false⟩

/-- C103 is false of the code for an object that can be hashed and can change, such as an instance of a class that
defines `__iter__`: once used, its pattern stays, so that after it changed from "," to ";" the next call still splits at
",". -/
theorem C103_stale_pattern :
    let σ : Store Char := ⟨fun _ => [[',']], fun _ => true, []⟩
    let τ : Store Char := { (σ.run strCache exampleGen).2 with cont := fun _ => [[';']] }
    (τ.call '\n' "a,b;c".toList (.ref 0) .no (some (-1)) false false .no).1.toOption.map (fun g => (τ.run strCache g).1) =
      some [.str ['a'], .str ['b', ';', 'c']] ∧
    multisplit '\n' strCache "a,b;c".toList (τ.contents (.ref 0)) =
      .ok [.str ['a', ',', 'b'], .str ['c']] := by
  refine ⟨?_, ?_⟩ <;> decide +kernel

/-- C103 is false of the code for a list that changes between the call and the first value asked for: with
`seps = [","]; i = multisplit(",a;b,", seps, strip=True); seps[0] = ";"` the string is stripped of "," and split at ";",
which neither list would give. -/
theorem C103_list_changed_before_start :
    let σ : Store Char := ⟨fun _ => [[',']], fun _ => false, []⟩
    let r := σ.call '\n' ",a;b,".toList (.ref 0) .no (some (-1)) false false .yes
    let τ : Store Char := { r.2 with cont := fun _ => [[';']] }
    r.1.toOption.map (fun g => (τ.run strCache g).1) = some [.str ['a'], .str ['b']] ∧
    multisplit '\n' strCache ",a;b,".toList [[',']] (strip := .yes) = .ok [.str "a;b".toList] ∧
    multisplit '\n' strCache ",a;b,".toList [[';']] (strip := .yes) = .ok [.str ",a".toList, .str "b,".toList] := by
  refine ⟨?_, ?_, ?_⟩ <;> decide +kernel

/-- The hypotheses hold in a state with a cache that was used: two calls, with a frozenset in two orders. -/
example : let σ : Store Char := ⟨fun _ => [[',']], fun _ => false, []⟩
    let τ := (σ.run strCache ⟨"a,b;c".toList, .frozen [[','], [';']], .no, some (-1), false, false, .no, false⟩).2
    StoreReach '\n' strCache (fun _ => false) τ ∧ τ.cache.length = 1 ∧
    (τ.run strCache ⟨"a;b".toList, .frozen [[';'], [',']], .no, some (-1), false, false, .no, false⟩).1 =
      [.str ['a'], .str ['b']] ∧
    (τ.run strCache ⟨"a;b".toList, .frozen [[';'], [',']], .no, some (-1), false, false, .no, false⟩).2.cache.length = 1 := by
  refine ⟨.step (.start _) (.run _ _), ?_, ?_, ?_⟩ <;> decide +kernel

end Big.MS
