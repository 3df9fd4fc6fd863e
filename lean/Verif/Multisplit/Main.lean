import Verif.Multisplit.SplitLemmas
/-! # multisplit in terms of the specification -/
namespace Big.MS
open Big.Rx Spec

variable {α : Type}

/-! ### only the set of separators matters -/

theorem noSep_congr {a b : List (List α)} (h : ∀ w, w ∈ a ↔ w ∈ b) {s : List α} :
    NoSep a s ↔ NoSep b s := by simp [NoSep, h]

theorem longest_congr {a b : List (List α)} (h : ∀ w, w ∈ a ↔ w ∈ b) {w s : List α} :
    Longest a w s ↔ Longest b w s := by simp [Longest, h]

theorem run_congr {a b : List (List α)} (h : ∀ w, w ∈ a ↔ w ∈ b) {m rest : List α}
    (hr : Run a m rest) : Run b m rest := by
  induction hr with
  | done hn => exact .done ((noSep_congr h).1 hn)
  | more hl _ ih => exact .more ((longest_congr h).1 hl) ih

theorem sepAt_congr {a b : List (List α)} (h : ∀ w, w ∈ a ↔ w ∈ b) {sp : Bool} {m rest : List α} :
    SepAt a sp m rest ↔ SepAt b sp m rest := by
  unfold SepAt
  split
  · exact longest_congr h
  · exact ⟨fun x => ⟨x.1, run_congr h x.2⟩, fun x => ⟨x.1, run_congr (fun w => (h w).symm) x.2⟩⟩

theorem matches_congr {a b : List (List α)} (h : ∀ w, w ∈ a ↔ w ∈ b) {sp : Bool}
    {mt : List α → Option (List α × List α)} (hm : Matches a sp mt) : Matches b sp mt := by
  intro s
  rcases hm s with ⟨m, rest, h1, h2, h3⟩ | ⟨h1, h2⟩
  · exact .inl ⟨m, rest, h1, (sepAt_congr h).1 h2, h3⟩
  · exact .inr ⟨(noSep_congr h).1 h1, h2⟩

/-! ### mirror -/

theorem mirror_mirror (l : List (List α)) : mirror (mirror l) = l := by
  simp [mirror, Function.comp_def]

theorem mirror_flatten (l : List (List α)) : (mirror l).flatten = l.flatten.reverse := by
  simp [mirror, List.reverse_flatten]

theorem mirror_length (l : List (List α)) : (mirror l).length = l.length := by simp [mirror]

/-- The cache of reversed separators is right. -/
def CacheOK (cache : List (List α) → Option (List (List α))) : Prop :=
  ∀ seps r, cache seps = some r → ∀ w, w ∈ r ↔ w ∈ seps.map List.reverse

theorem mem_revSeps [DecidableEq α] {cache : List (List α) → Option (List (List α))}
    (hc : CacheOK cache) (seps : List (List α)) (w : List α) :
    w ∈ revSeps cache seps ↔ w ∈ seps.map List.reverse := by
  unfold revSeps
  split
  · exact hc _ _ ‹_› w
  · rfl

variable [DecidableEq α]

theorem nil_mem_map_reverse {seps : List (List α)} :
    [] ∈ seps.map List.reverse ↔ [] ∈ seps := by simp

/-- What a keep mode makes of the pieces. -/
def render : Keep → List (List α) → List (Item α)
  | .no, l => (texts l).map .str
  | .yes, l => (joined l).map .str
  | .alternating, l => l.map .str
  | .asPairs, l => (pairs l).map (fun x => .pair x.1 x.2)

theorem pairUp_yes : ∀ l : List (List α), l.length % 2 = 1 →
    pairUp .yes (l ++ [[]]) = (joined l).map .str
  | [], h => by simp at h
  | [a], _ => by simp [pairUp, joined]
  | a :: w :: l, h => by
    have := pairUp_yes l (by simp only [List.length_cons] at h; omega)
    simp [pairUp, joined, this]

theorem pairUp_pairs : ∀ l : List (List α), l.length % 2 = 1 →
    pairUp .asPairs (l ++ [[]]) = (pairs l).map (fun x => .pair x.1 x.2)
  | [], h => by simp at h
  | [a], _ => by simp [pairUp, pairs]
  | a :: w :: l, h => by
    have := pairUp_pairs l (by simp only [List.length_cons] at h; omega)
    simp [pairUp, pairs, this]

theorem emit_render {keep : Keep} {l : List (List α)} (h : l.length % 2 = 1) (hk : keep ≠ .no) :
    emit keep l = render keep l := by
  cases keep with
  | no => exact absurd rfl hk
  | yes => simp [emit, render, h, pairUp_yes l h]
  | alternating => rfl
  | asPairs => simp [emit, render, h, pairUp_pairs l h]

theorem emit_texts (l : List (List α)) : emit .no (texts l) = render .no l := rfl

theorem texts_append : ∀ (l : List (List α)) (w : List α) (r : List (List α)), l.length % 2 = 1 →
    texts (l ++ (w :: r)) = texts l ++ texts r
  | [], _, _, h => by simp at h
  | [a], w, r, _ => by simp [texts]
  | a :: b :: l, w, r, h => by
    have := texts_append l w r (by simp only [List.length_cons] at h; omega)
    simp [texts, this]

/-- Mirroring an alternating list mirrors its texts. -/
theorem texts_mirror : ∀ (l : List (List α)), l.length % 2 = 1 →
    texts (mirror l) = mirror (texts l)
  | [], h => by simp at h
  | [a], _ => by simp [texts, mirror]
  | a :: w :: l, h => by
    have hl : l.length % 2 = 1 := by simp only [List.length_cons] at h; omega
    have ih := texts_mirror l hl
    have : mirror (a :: w :: l) = mirror l ++ (w.reverse :: [a.reverse]) := by simp [mirror]
    rw [this, texts_append _ _ _ (by rw [mirror_length]; exact hl), ih]
    simp [texts, mirror]

/-- The pieces, before a keep mode is applied. -/
theorem reSplit_spec {seps : List (List α)} {sp : Bool} {mt : List α → Option (List α × List α)}
    (hm : Matches seps sp mt) (he : [] ∉ seps) (s : List α) :
    ∃ l, Alternates seps sp l ∧ l.flatten = s ∧
      (reSplit mt true 0 s = l ∧ reSplit mt false 0 s = texts l) ∧
      (∀ n : Int, n ≠ 0 → reSplit mt true n s = limit n.toNat l ∧
        reSplit mt false n s = texts (limit n.toNat l)) := by
  refine ⟨splitLoop mt true (s.length + 1) none s, (splitLoop_alternates hm he _ _ (by omega)).1,
    (splitLoop_alternates hm he _ _ (by omega)).2, ⟨rfl, ?_⟩, ?_⟩
  · simp only [reSplit, if_true, splitLoop_texts]
  · intro n hn
    simp only [reSplit, hn, if_false, splitLoop_texts, splitLoop_limit hm he _ _ _ (Nat.lt_succ_self _),
      and_self]

/-- How many splits a value of maxsplit allows (`none`: no limit). A negative number other than -1
allows none. -/
def allowed : Option Int → Option Nat
  | none => none
  | some n => if n = -1 then none else some n.toNat

/-- The pieces left after the allowed number of splits. -/
def cut (reverse : Bool) : Option Nat → List (List α) → List (List α)
  | none, l => l
  | some n, l => limitDir reverse n l

theorem cut_odd {reverse : Bool} {n : Option Nat} {l : List (List α)} (h : l.length % 2 = 1) :
    (cut reverse n l).length % 2 = 1 := by
  cases n with
  | none => exact h
  | some n =>
    simp only [cut, limitDir]
    split
    · rw [mirror_length]; exact limit_odd _ _ (by rw [mirror_length]; exact h)
    · exact limit_odd _ _ h

theorem cut_flatten {reverse : Bool} {n : Option Nat} {l : List (List α)} :
    (cut reverse n l).flatten = l.flatten := by
  cases n with
  | none => rfl
  | some n =>
    simp only [cut, limitDir]
    split
    · rw [mirror_flatten, limit_flatten, mirror_flatten, List.reverse_reverse]
    · exact limit_flatten _ _

theorem splits_odd {seps : List (List α)} {sp reverse : Bool} {s : List α} {l : List (List α)}
    (h : Splits seps sp reverse s l) : l.length % 2 = 1 := by
  obtain ⟨_, h⟩ := h
  split at h
  · rw [← mirror_length]; exact alternates_odd _ h
  · exact alternates_odd _ h

theorem msGen_spec {cache : List (List α) → Option (List (List α))} (hc : CacheOK cache)
    {seps : List (List α)} (hne : seps ≠ []) (he : [] ∉ seps) (separate reverse : Bool)
    (s : List α) :
    ∃ l, Splits seps separate reverse s l ∧
      ∀ (keep : Keep) (maxsplit : Option Int) (strip : Strip), strip ≠ .progressive →
        msGen cache s seps keep maxsplit reverse separate strip (decide (keep ≠ .no))
          = render keep (cut reverse (allowed maxsplit) l) := by
  cases reverse with
  | false =>
    obtain ⟨l, h1, h2, ⟨h3, h3'⟩, h4⟩ :=
      reSplit_spec (seps := seps) (sp := separate) (match0_sepRe hne he separate) he s
    refine ⟨l, ⟨h2, by simpa using h1⟩, ?_⟩
    intro keep maxsplit strip hst
    by_cases hz : maxsplit = some 0
    · subst hz
      simp only [msGen, if_true]
      have : cut false (allowed (some 0)) l = [s] := by simp [allowed, cut, limitDir, limit, h2]
      rw [this]
      cases keep <;> simp [render, texts, joined, pairs]
    · have hodd := alternates_odd _ h1
      have key : reSplit (match0 (sepRe seps separate)) true
            (if maxsplit.getD (-1) = -1 then 0 else maxsplit.getD (-1)) s
            = cut false (allowed maxsplit) l ∧
          reSplit (match0 (sepRe seps separate)) false
            (if maxsplit.getD (-1) = -1 then 0 else maxsplit.getD (-1)) s
            = texts (cut false (allowed maxsplit) l) := by
        cases maxsplit with
        | none => simpa [allowed, cut] using ⟨h3, h3'⟩
        | some n =>
          simp only [Option.getD_some, allowed]
          by_cases hn : n = -1
          · simpa [hn, cut] using ⟨h3, h3'⟩
          · have hn0 : n ≠ 0 := fun e => hz (by rw [e])
            simpa [hn, cut, limitDir] using h4 n hn0
      simp only [msGen, hz, if_false, Bool.false_eq_true, hst]
      by_cases hk : keep = .no
      · subst hk
        simp only [ne_eq, not_true_eq_false, decide_false, key.2]
        rfl
      · simp only [ne_eq, hk, not_false_eq_true, decide_true, key.1]
        exact emit_render (cut_odd hodd) hk
  | true =>
    have hm : Matches (seps.map List.reverse) separate
        (match0 (sepRe (revSeps cache seps) separate)) := by
      have hmem := mem_revSeps hc seps
      refine matches_congr hmem (match0_sepRe ?_ ?_ separate)
      · intro e
        cases seps with
        | nil => exact hne rfl
        | cons w r =>
          have := (hmem w.reverse).2 (by simp)
          rw [e] at this; simp at this
      · rw [hmem, nil_mem_map_reverse]; exact he
    obtain ⟨l, h1, h2, ⟨h3, h3'⟩, h4⟩ :=
      reSplit_spec hm (by rw [nil_mem_map_reverse]; exact he) s.reverse
    have hodd := alternates_odd _ h1
    refine ⟨mirror l, ⟨by rw [mirror_flatten, h2, List.reverse_reverse], by
      simpa [mirror_mirror] using h1⟩, ?_⟩
    intro keep maxsplit strip hst
    by_cases hz : maxsplit = some 0
    · subst hz
      simp only [msGen, if_true]
      have : cut true (allowed (some 0)) (mirror l) = [s] := by
        show mirror (limit 0 (mirror (mirror l))) = [s]
        rw [mirror_mirror, limit, h2]; simp [mirror]
      rw [this]
      cases keep <;> simp [render, texts, joined, pairs]
    · have key : reSplit (match0 (sepRe (revSeps cache seps) separate)) true
            (if maxsplit.getD (-1) = -1 then 0 else maxsplit.getD (-1)) s.reverse
            = mirror (cut true (allowed maxsplit) (mirror l)) ∧
          reSplit (match0 (sepRe (revSeps cache seps) separate)) false
            (if maxsplit.getD (-1) = -1 then 0 else maxsplit.getD (-1)) s.reverse
            = texts (mirror (cut true (allowed maxsplit) (mirror l))) := by
        cases maxsplit with
        | none => simpa [allowed, cut, mirror_mirror] using ⟨h3, h3'⟩
        | some n =>
          simp only [Option.getD_some, allowed]
          by_cases hn : n = -1
          · simpa [hn, cut, mirror_mirror] using ⟨h3, h3'⟩
          · have hn0 : n ≠ 0 := fun e => hz (by rw [e])
            simpa [hn, cut, limitDir, mirror_mirror] using h4 n hn0
      have hodd' : (cut true (allowed maxsplit) (mirror l)).length % 2 = 1 :=
        cut_odd (by rw [mirror_length]; exact hodd)
      simp only [msGen, hz, if_false, if_true, hst]
      by_cases hk : keep = .no
      · subst hk
        simp only [ne_eq, not_true_eq_false, decide_false, key.2]
        rw [texts_mirror _ hodd']
        show emit .no (mirror (mirror (texts _))) = _
        rw [mirror_mirror]
        rfl
      · simp only [ne_eq, hk, not_false_eq_true, decide_true, key.1]
        show emit keep (mirror (mirror _)) = _
        rw [mirror_mirror]
        exact emit_render hodd' hk

end Big.MS
